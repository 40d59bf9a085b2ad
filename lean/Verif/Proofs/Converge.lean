import Verif.Proofs.Landscape

/-! How many iterations a run on a smooth energy needs. -/

namespace Nlcg
open Spec Arith
variable {V : Type} [NormedAddCommGroup V] [InnerProductSpace ℝ V]

namespace Land
variable {q : Landscape V}

/-- the run, if an invariant makes every search do what `search_run` says -/
theorem whole {x0 : V} {prm : NlcgParams ℝ} {fuel rank : ℕ} (hr : prm.restart ≠ 0)
    (P : Vars ℝ V V → Prop)
    (h0 : P { pt := x0, dir := -q.K (q.gradient x0), slope := -N q x0, fr := -N q x0 })
    (hgo : ∀ v w, Ok q v w → P v → (Arith.abs v.slope <ᶠ prm.tol) = false →
      0 < seen q v.pt v.dir v.slope ∧ q.energy (v.pt + aim q v.pt v.dir v.slope • v.dir) ≤ q.energy v.pt)
    (hnext : ∀ (i : ℕ) v v' w w', Ok q v w → P v → (Arith.abs v.slope <ᶠ prm.tol) = false →
      v'.pt = v.pt + aim q v.pt v.dir v.slope • v.dir → Ok q v' w' →
      (prm.restart ∣ (i : ℤ) → Steep q v' ∧ v'.fr = v'.slope) →
      (¬ prm.restart ∣ (i : ℤ) →
        -N q v'.pt + -N q v'.pt / v.fr * inner ℝ v.dir (q.gradient v'.pt) = 0 → v'.slope = 0) → P v')
    (w : NState ℝ V) :
    ∃ o w', nlcg (q.ops x0) prm (fuel + 1) rank w = some (o, w') ∧
      LoopRun (q.ops x0) prm (fuel + 1) rank prm.maxiter.toNat 0
        { pt := x0, dir := -q.K (q.gradient x0), slope := -N q x0, fr := -N q x0 }
        { s := x0, file := [], info := { vals := none, converged := false }, force := false, trace := [] } o w' := by
  have hne : nlcg (q.ops x0) prm (fuel + 1) rank w ≠ none := by
    refine nlcg_ne_none _ prm (fuel + 1) rank (fun v w => Ok q v w ∧ P v) w ?_ ?_ ?_
    · intro s1 pt s2 slope dir s3 h1 h2 h3
      simp only [Landscape.ops, Prod.mk.injEq, Res.ok.injEq] at h1 h2 h3
      obtain ⟨rfl, rfl⟩ := h2
      obtain ⟨⟨rfl, rfl⟩, rfl⟩ := h3
      exact ⟨Steep.ok q ⟨rfl, rfl⟩ rfl, h0⟩
    · intro i v w v' w1 h ht hb
      obtain ⟨a1, a2⟩ := hgo v w h.1 h.2 ht
      obtain ⟨v'', e1, e2, e3, e4, e5⟩ := body q hb h.1 a1 a2 hr
      obtain rfl := Res.ok.inj e1
      exact ⟨e3, hnext i v v' w w1 h.1 h.2 ht e2 e3 e4 e5⟩
    · intro i v w s1 s2 file' h ht hj hp
      obtain ⟨a1, a2⟩ := hgo v w h.1 h.2 ht
      have hs : s2 = v.pt := by
        simp only [Landscape.ops, Prod.mk.injEq] at hp
        have h1 := hj.1
        rw [← hp.2, ← h.1.state]
        split at h1
        all_goals
          simp only [Landscape.ops, Prod.mk.injEq] at h1
          exact h1.2
      rw [hs, search_run q v.pt v.dir x0 v.slope h.1.down a1 a2]
      simp
  cases h : nlcg (q.ops x0) prm (fuel + 1) rank w with
  | none => exact absurd h hne
  | some p =>
    obtain ⟨o, w'⟩ := p
    refine ⟨o, w', rfl, ?_⟩
    cases nlcg_run (q.ops x0) prm (fuel + 1) rank w _ _ h with
    | construct o s1 h1 h2 => simp only [Landscape.ops, Prod.mk.injEq] at h1; rw [← h1.1] at h2; simp [Res.isOk] at h2
    | setup s1 o s2 h1 h2 h3 => simp only [Landscape.ops, Prod.mk.injEq] at h2; rw [← h2.1] at h3; simp [Res.isOk] at h3
    | restarted s1 pt s2 o s3 h1 h2 h3 h4 =>
      simp only [Landscape.ops, Prod.mk.injEq] at h3; rw [← h3.1] at h4; simp [Res.isOk] at h4
    | loop s1 pt s2 slope dir s3 o w' h1 h2 h3 h4 =>
      simp only [Landscape.ops, Prod.mk.injEq, Res.ok.injEq] at h2 h3
      obtain ⟨rfl, rfl⟩ := h2
      obtain ⟨⟨rfl, rfl⟩, rfl⟩ := h3
      exact h4

theorem json_ok {x0 : V} {rank i : ℕ} {slope : ℝ} {pt : V} {w : NState ℝ V} {o : Res Unit} {s1 : V}
    {file' : List (JsonRec ℝ)} (h : JsonRun (q.ops x0) rank i slope pt w o s1 file') : o = .ok () ∧ s1 = w.s := by
  have h1 := h.1
  split at h1
  all_goals
    simp only [Landscape.ops, Prod.mk.injEq] at h1
    exact ⟨h1.1, h1.2⟩

/-! ## Bounded curvature -/

section
variable {M : V →ₗ[ℝ] V} {m L : ℝ} (hq : q.Curved M m L)
include hq

theorem seen_bounds {x d : V} {slope : ℝ} (hs : slope = inner ℝ (q.gradient x) d) :
    m / 2 * inner ℝ d (M d) ≤ seen q x d slope ∧ seen q x d slope ≤ L / 2 * inner ℝ d (M d) := by
  have h1 := hq.lower x ((1 / 5 : ℝ) • d)
  have h2 := hq.upper x ((1 / 5 : ℝ) • d)
  simp only [map_smul, inner_smul_left, inner_smul_right, conj_trivial, ← hs] at h1 h2
  rw [seen, hs]
  rw [hs] at h1 h2
  constructor
  · rw [le_div_iff₀ (by norm_num)]; linarith
  · rw [div_le_iff₀ (by norm_num)]; linarith

/-- the search lowers the energy -/
theorem fall (hm : 0 < m) (hL : L < 2 * m) {x d : V} {slope : ℝ} (hs : slope = inner ℝ (q.gradient x) d) (h0 : slope ≠ 0) :
    0 < inner ℝ d (M d) ∧ 0 < seen q x d slope ∧
    q.energy (x + aim q x d slope • d) ≤ q.energy x - (2 * m - L) / (2 * m ^ 2) * (slope ^ 2 / inner ℝ d (M d)) := by
  have hd : d ≠ 0 := by rintro rfl; exact h0 (by rw [hs, inner_zero_right])
  have hD := hq.pos d hd
  obtain ⟨b1, b2⟩ := seen_bounds hq hs
  have hpos : 0 < seen q x d slope := lt_of_lt_of_le (by positivity) b1
  refine ⟨hD, hpos, ?_⟩
  have hu := hq.upper x (aim q x d slope • d)
  simp only [map_smul, inner_smul_left, inner_smul_right, conj_trivial, ← hs] at hu
  have ha : aim q x d slope = -slope / (2 * seen q x d slope) := rfl
  generalize aim q x d slope = t at *
  generalize seen q x d slope = a at *
  generalize inner ℝ d (M d) = D at *
  -- `a = k D / 2`
  obtain ⟨k, rfl⟩ : ∃ k, a = k * D / 2 := ⟨2 * a / D, by field_simp⟩
  have hk1 : m ≤ k := by
    by_contra h
    push Not at h
    nlinarith
  have hk2 : k ≤ L := by
    by_contra h
    push Not at h
    nlinarith
  have hk : 0 < k := hm.trans_le hk1
  have ht : t = -slope / (k * D) := by rw [ha]; congr 1; ring
  have e : t * slope + L / 2 * (t * (t * D)) = -((2 * k - L) / (2 * k ^ 2) * (slope ^ 2 / D)) := by
    rw [ht]
    field_simp
    ring
  have hc : (2 * m - L) / (2 * m ^ 2) ≤ (2 * k - L) / (2 * k ^ 2) := by
    rw [div_le_div_iff₀ (by positivity) (by positivity)]
    have h1 : 0 ≤ (k - m) * (L * (k + m) - 2 * m * k) := by
      refine mul_nonneg (by linarith) ?_
      nlinarith
    nlinarith
  have hS : 0 ≤ slope ^ 2 / D := by positivity
  have := mul_le_mul_of_nonneg_right hc hS
  linarith

/-- along the negative gradient -/
theorem fall_steep (hm : 0 < m) (hL : L < 2 * m) {v : Vars ℝ V V} (hv : Steep q v) (h0 : v.slope ≠ 0) :
    q.energy (v.pt + aim q v.pt v.dir v.slope • v.dir) ≤
      q.energy v.pt - (2 * m - L) / (2 * m ^ 2) * N q v.pt := by
  have hs : v.slope = inner ℝ (q.gradient v.pt) v.dir := (Steep.ok q hv (w := ⟨v.pt, [], ⟨none, false⟩, false, []⟩) rfl).slope
  obtain ⟨h1, h2, h3⟩ := fall hq hm hL hs h0
  have hD : inner ℝ v.dir (M v.dir) = N q v.pt := by
    rw [hv.2, map_neg, inner_neg_neg, hq.inv, real_inner_comm, N]
  rw [hD, hv.1] at h3
  have hN : N q v.pt ≠ 0 := by
    intro h
    rw [hv.1, h, neg_zero] at h0
    exact h0 rfl
  have e : (-N q v.pt) ^ 2 / N q v.pt = N q v.pt := by field_simp
  rw [e, ← hv.1] at h3
  exact h3

end

/-- the number of iterations before iteration `i` that follow the gradient -/
def steeps (r : ℕ) : ℕ → ℕ
  | 0 => 0
  | i + 1 => 1 + (i + r - 1) / r

theorem steeps_ge {r : ℕ} (hr : 0 < r) (n : ℕ) : n ≤ r * steeps r n := by
  cases n with
  | zero => simp
  | succ i =>
    rw [steeps, mul_add, mul_one]
    have h1 := Nat.div_add_mod (i + r - 1) r
    have h2 := Nat.mod_lt (i + r - 1) hr
    omega

theorem steeps_next {r : ℕ} (hr : 0 < r) (i : ℕ) :
    steeps r (i + 2) = steeps r (i + 1) + if r ∣ i then 1 else 0 := by
  rw [steeps, steeps]
  have : i + 1 + r - 1 = (i + r - 1) + 1 := by omega
  rw [this, Nat.succ_div, add_assoc]
  congr 2
  have h2 : i + r - 1 + 1 = i + r := by omega
  rw [h2]
  simp

theorem steeps_mono {r : ℕ} (hr : 0 < r) : Monotone (steeps r) := by
  refine monotone_nat_of_le_succ fun n => ?_
  cases n with
  | zero => simp [steeps]
  | succ i => rw [steeps_next hr]; omega

theorem big {tol slope : ℝ} (htol : 0 < tol) (h : (Arith.abs slope <ᶠ tol) = false) : slope ≠ 0 ∧ tol ≤ |slope| := by
  simp only [real_abs, real_lt, decide_eq_false_iff_not, not_lt] at h
  refine ⟨?_, h⟩
  rintro rfl
  rw [abs_zero] at h
  linarith

theorem count {x0 : V} {prm : NlcgParams ℝ} {fuel rank : ℕ} {M : V →ₗ[ℝ] V} {m L E : ℝ} (hq : q.Curved M m L)
    (hm : 0 < m) (hL : L < 2 * m) (hE : ∀ x, E ≤ q.energy x) (htol : 0 < prm.tol) {r : ℕ} (hr : prm.restart = r) (hr0 : 0 < r)
    {n i : ℕ} {v : Vars ℝ V V} {w : NState ℝ V} {o : Res (Info ℝ)} {w' : NState ℝ V}
    (h : LoopRun (q.ops x0) prm (fuel + 1) rank n i v w o w') :
    Ok q v w → (i = 0 → Steep q v) → (∀ j, i = j + 1 → r ∣ j → Steep q v) →
      (steeps r i : ℝ) * ((2 * m - L) / (2 * m ^ 2) * prm.tol) ≤ q.energy x0 - q.energy v.pt →
      q.energy x0 - E < (steeps r (i + n) : ℝ) * ((2 * m - L) / (2 * m ^ 2) * prm.tol) →
      ∃ vals, o = .ok { vals := some vals, converged := true } ∧ vals.F = q.energy w'.s ∧
        (steeps r vals.iter : ℝ) * ((2 * m - L) / (2 * m ^ 2) * prm.tol) ≤ q.energy x0 - vals.F := by
  have hc : 0 < (2 * m - L) / (2 * m ^ 2) := by
    have : 0 < 2 * m - L := by linarith
    positivity
  have hr' : prm.restart ≠ 0 := by omega
  have go : ∀ {i : ℕ} {v v' : Vars ℝ V V} {w w1 : NState ℝ V} {o : Res (Vars ℝ V V)}, Ok q v w →
      (Arith.abs v.slope <ᶠ prm.tol) = false →
      BodyRun (q.ops x0) prm (fuel + 1) rank i v (started i v.slope w) o w1 → ∃ v', o = .ok v' ∧ Ok q v' w1 ∧
        ((r : ℤ) ∣ (i : ℤ) → Steep q v') ∧ q.energy v'.pt ≤ q.energy v.pt ∧
        (Steep q v → q.energy v'.pt ≤ q.energy v.pt - (2 * m - L) / (2 * m ^ 2) * prm.tol) := by
    intro i v v' w w1 o hv h1 h2
    obtain ⟨h0, ht⟩ := big htol h1
    obtain ⟨f1, f2, f3⟩ := fall hq hm hL hv.slope h0
    have hle : q.energy (v.pt + aim q v.pt v.dir v.slope • v.dir) ≤ q.energy v.pt := by
      refine f3.trans ?_
      have : 0 ≤ (2 * m - L) / (2 * m ^ 2) * (v.slope ^ 2 / inner ℝ v.dir (M v.dir)) := by positivity
      linarith
    obtain ⟨v', e1, e2, e3, e4, -⟩ := body q h2 hv f2 hle hr'
    refine ⟨v', e1, e3, fun hd => (e4 (by rwa [hr])).1, by rw [e2]; exact hle, fun hst => ?_⟩
    have h5 := fall_steep hq hm hL hst h0
    rw [← e2] at h5
    rw [hst.1, abs_neg, abs_of_nonneg (N_nonneg q v.pt)] at ht
    have := mul_le_mul_of_nonneg_left ht hc.le
    linarith
  induction h with
  | limit i v w =>
    intro _ _ _ hi hn
    have := hE v.pt
    rw [Nat.add_zero] at hn
    linarith
  | success n i v w s1 s2 file' h1 h2 h3 =>
    intro hv _ _ hi _
    obtain ⟨-, rfl⟩ := json_ok h2
    simp only [Landscape.ops, Prod.mk.injEq] at h3
    obtain ⟨-, rfl⟩ := h3
    refine ⟨_, rfl, rfl, ?_⟩
    show (steeps r i : ℝ) * _ ≤ q.energy x0 - q.energy w.s
    rw [hv.state]; exact hi
  | successJson n i v w o s1 file' h1 h2 h3 => rw [(json_ok h2).1] at h3; simp [Res.isOk] at h3
  | successPrint n i v w s1 file' o s2 h1 h2 h3 h4 =>
    simp only [Landscape.ops, Prod.mk.injEq] at h3
    rw [← h3.1] at h4; simp [Res.isOk] at h4
  | step n i v w v' w1 o w' h1 h2 h3 ih =>
    intro hv hz hs hi hn
    obtain ⟨v'', e1, e2, e3, e4, e5⟩ := go (v' := v') hv h1 h2
    obtain rfl := Res.ok.inj e1
    refine ih e2 (fun h => absurd h (Nat.succ_ne_zero i)) (fun j hj hd => ?_) ?_ ?_
    · obtain rfl : i = j := by omega
      exact e3 (by exact_mod_cast hd)
    · cases i with
      | zero =>
        have := e5 (hz rfl)
        have e : (steeps r (0 + 1) : ℝ) = 1 := by
          rw [steeps, Nat.zero_add, Nat.div_eq_of_lt (by omega)]; norm_num
        simp only [steeps, Nat.cast_zero, zero_mul] at hi
        rw [e]
        linarith
      | succ j =>
        rw [steeps_next hr0]
        split
        · rename_i hd
          have := e5 (hs j rfl hd)
          push_cast
          linarith
        · push_cast
          linarith
    · rw [show i + 1 + n = i + (n + 1) by omega]; exact hn
  | caught n i v w e w1 h1 h2 h3 =>
    intro hv _ _ _ _
    obtain ⟨v'', e1, -⟩ := go (v' := v) hv h1 h2
    exact absurd e1 (by simp)
  | uncaught n i v w o w1 h1 h2 h3 =>
    intro hv _ _ _ _
    obtain ⟨v'', rfl, -⟩ := go (v' := v) hv h1 h2
    simp_all [Res.isOk]

end Land
end Nlcg
