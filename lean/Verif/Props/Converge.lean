import Verif.Proofs.Converge
import Mathlib.Analysis.SpecialFunctions.Sqrt
import Mathlib.Analysis.Calculus.Deriv.Pow
import Mathlib.Analysis.Calculus.Deriv.Add
import Mathlib.Analysis.Calculus.Deriv.Mul

/-!
# C106: enough iterations lead to convergence
-/

namespace Nlcg
open Spec Arith Land

section
variable {V : Type} [NormedAddCommGroup V] [InnerProductSpace ℝ V]

/-- **C106.** On an energy whose curvature varies by less than a factor of two the run reports convergence as soon as the
iteration limit exceeds `restart * (E(x0) - Emin) / (c * tol)`, `c = (2 m - L) / (2 m²)`. The iterations it took are
bounded by the energy it gained. -/
theorem C106_converges_partial (q : Landscape V) (M : V →ₗ[ℝ] V) {m L Emin : ℝ} (hq : q.Curved M m L) (hm : 0 < m)
    (hL : L < 2 * m) (hE : ∀ x, Emin ≤ q.energy x) (x0 : V) (prm : NlcgParams ℝ) (htol : 0 < prm.tol) (r : ℕ)
    (hr : prm.restart = r) (hr0 : 0 < r)
    (hmax : r * (q.energy x0 - Emin) < prm.maxiter * ((2 * m - L) / (2 * m ^ 2) * prm.tol)) (fuel rank : ℕ)
    (w : NState ℝ V) :
    ∃ vals w', nlcg (q.ops x0) prm (fuel + 1) rank w = some (.ok { vals := some vals, converged := true }, w') ∧
      vals.F = q.energy w'.s ∧
      vals.iter * ((2 * m - L) / (2 * m ^ 2) * prm.tol) ≤ r * (q.energy x0 - vals.F) := by
  have hr' : prm.restart ≠ 0 := by omega
  have hpos : 0 < (2 * m - L) / (2 * m ^ 2) * prm.tol := by
    have : 0 < 2 * m - L := by linarith
    positivity
  obtain ⟨o, w', h1, h2⟩ := whole (q := q) (x0 := x0) (fuel := fuel) (rank := rank) hr' (fun _ => True) trivial
    (fun v w hv _ ht => by
      obtain ⟨h0, -⟩ := big htol ht
      obtain ⟨f1, f2, f3⟩ := fall hq hm hL hv.slope h0
      refine ⟨f2, f3.trans ?_⟩
      have : 0 ≤ (2 * m - L) / (2 * m ^ 2) * (v.slope ^ 2 / inner ℝ v.dir (M v.dir)) := by
        have : 0 < 2 * m - L := by linarith
        positivity
      linarith)
    (fun _ _ _ _ _ _ _ _ _ _ _ _ => trivial) w
  have hscale : ∀ n : ℕ, (n : ℝ) ≤ r * steeps r n := fun n => by exact_mod_cast steeps_ge hr0 n
  have hr1 : (0 : ℝ) < r := by exact_mod_cast hr0
  have h0E := hE x0
  obtain ⟨vals, rfl, e1, e2⟩ := count hq hm hL hE htol hr hr0 h2 (Steep.ok q ⟨rfl, rfl⟩ rfl) (fun _ => ⟨rfl, rfl⟩)
    (fun j hj => by omega) (by simp [steeps]) (by
      have hmx : (0 : ℤ) ≤ prm.maxiter := by
        by_contra h
        have : (prm.maxiter : ℝ) < 0 := by exact_mod_cast not_le.1 h
        have h3 : (prm.maxiter : ℝ) * ((2 * m - L) / (2 * m ^ 2) * prm.tol) < 0 := mul_neg_of_neg_of_pos this hpos
        have h4 : 0 ≤ r * (q.energy x0 - Emin) := mul_nonneg hr1.le (by linarith)
        linarith
      have e : (prm.maxiter : ℝ) = (prm.maxiter.toNat : ℝ) := by
        have : ((prm.maxiter.toNat : ℕ) : ℤ) = prm.maxiter := Int.toNat_of_nonneg hmx
        exact_mod_cast this.symm
      rw [e] at hmax
      have h5 := mul_le_mul_of_nonneg_right (hscale prm.maxiter.toNat) hpos.le
      rw [Nat.zero_add]
      refine lt_of_mul_lt_mul_left (a := (r : ℝ)) ?_ hr1.le
      linarith)
  refine ⟨vals, w', h1, e1, ?_⟩
  have h5 := mul_le_mul_of_nonneg_right (hscale vals.iter) hpos.le
  have h6 := mul_le_mul_of_nonneg_left e2 hr1.le
  linarith

end

/-! ## Energies on the line -/

/-- `a x² + b sqrt(1 + k x²)` -/
noncomputable def basin (a b k : ℝ) (hk : 0 < k) : Landscape ℝ where
  energy x := a * x ^ 2 + b * √(1 + k * x ^ 2)
  gradient x := 2 * a * x + b * k * x / √(1 + k * x ^ 2)
  K := LinearMap.id
  deriv x d := by
    have h0 : HasDerivAt (fun t : ℝ => x + t • d) d 0 := by
      simpa using ((hasDerivAt_id (0 : ℝ)).mul_const d).const_add x
    have hx : 1 + k * (x + (0 : ℝ) • d) ^ 2 ≠ 0 := by positivity
    have h1 := ((h0.pow 2).const_mul a).add ((((h0.pow 2).const_mul k).const_add 1).sqrt hx |>.const_mul b)
    refine h1.congr_deriv ?_
    have : √(1 + k * x ^ 2) ≠ 0 := by positivity
    simp only [Pi.pow_apply, zero_smul, add_zero, RCLike.inner_apply, conj_trivial]
    field_simp
    ring
  posK x hx := by
    show 0 < inner ℝ x x
    exact real_inner_self_pos.2 hx

theorem basin_curved {a b k : ℝ} (hk : 0 < k) (hb : 0 ≤ b) :
    (basin a b k hk).Curved LinearMap.id (2 * a) (2 * a + b * k) := by
  have key : ∀ x d : ℝ, 0 ≤ √(1 + k * (x + d) ^ 2) - √(1 + k * x ^ 2) - k * x * d / √(1 + k * x ^ 2) ∧
      √(1 + k * (x + d) ^ 2) - √(1 + k * x ^ 2) - k * x * d / √(1 + k * x ^ 2) ≤ k / 2 * d ^ 2 := by
    intro x d
    have p : 1 ≤ √(1 + k * x ^ 2) := by rw [Real.one_le_sqrt]; nlinarith [sq_nonneg x]
    have p2 : √(1 + k * x ^ 2) ^ 2 = 1 + k * x ^ 2 := Real.sq_sqrt (by positivity)
    have r0 : 0 ≤ √(1 + k * (x + d) ^ 2) := Real.sqrt_nonneg _
    have r2 : √(1 + k * (x + d) ^ 2) ^ 2 = 1 + k * (x + d) ^ 2 := Real.sq_sqrt (by positivity)
    generalize √(1 + k * x ^ 2) = p' at *
    generalize √(1 + k * (x + d) ^ 2) = r' at *
    have e : r' - p' - k * x * d / p' = (r' * p' - (1 + k * (x * (x + d)))) / p' := by
      field_simp
      linear_combination -p2
    rw [e]
    constructor
    · refine div_nonneg ?_ (by linarith)
      have h : (1 + k * (x * (x + d))) ^ 2 ≤ (r' * p') ^ 2 := by
        rw [mul_pow, p2, r2]
        nlinarith [mul_nonneg hk.le (sq_nonneg d)]
      have := abs_le_of_sq_le_sq' h (mul_nonneg r0 (by linarith))
      linarith [this.2]
    · rw [div_le_iff₀ (by linarith)]
      have h1 : r' * p' - (1 + k * (x * (x + d))) ≤ k / 2 * d ^ 2 := by nlinarith [sq_nonneg (r' - p')]
      have h2 : k / 2 * d ^ 2 ≤ k / 2 * d ^ 2 * p' := le_mul_of_one_le_right (by positivity) p
      linarith
  have e : ∀ x d, (basin a b k hk).energy (x + d) - (basin a b k hk).energy x - inner ℝ ((basin a b k hk).gradient x) d =
      a * d ^ 2 + b * (√(1 + k * (x + d) ^ 2) - √(1 + k * x ^ 2) - k * x * d / √(1 + k * x ^ 2)) := by
    intro x d
    simp only [basin, RCLike.inner_apply, conj_trivial]
    ring
  refine ⟨fun g => rfl, fun d hd => real_inner_self_pos.2 hd, fun x d => ?_, fun x d => ?_⟩
  · rw [e]
    have := mul_nonneg hb (key x d).1
    simp only [LinearMap.id_coe, id_eq, RCLike.inner_apply, conj_trivial]
    nlinarith
  · rw [e]
    have := mul_le_mul_of_nonneg_left (key x d).2 hb
    simp only [LinearMap.id_coe, id_eq, RCLike.inner_apply, conj_trivial]
    nlinarith

/-- an energy that is not quadratic: `x² + sqrt(1 + x²)` from `x = 1` to `1/100` needs at most 6000 iterations -/
example (fuel rank : ℕ) (w : NState ℝ ℝ) : ∃ vals w',
    nlcg ((basin 1 1 1 one_pos).ops 1) { maxiter := 6000, tol := 1 / 100, tau := 1 / 10, restart := 3 } (fuel + 1) rank w =
      some (.ok { vals := some vals, converged := true }, w') ∧ vals.F = (basin 1 1 1 one_pos).energy w'.s := by
  have hs2 : √2 ≤ 71 / 50 := Real.sqrt_le_iff.2 (by norm_num)
  obtain ⟨vals, w', h1, h2, -⟩ := C106_converges_partial (basin 1 1 1 one_pos) LinearMap.id (m := 2) (L := 3) (Emin := 0)
    (by have := basin_curved (a := 1) (b := 1) one_pos zero_le_one
        norm_num at this
        exact this) (by norm_num) (by norm_num)
    (fun x => by simp only [basin]; positivity) 1
    { maxiter := 6000, tol := 1 / 100, tau := 1 / 10, restart := 3 } (by norm_num) 3 rfl (by norm_num)
    (by simp only [basin]; norm_num; norm_num at hs2; linarith) fuel rank w
  exact ⟨vals, w', h1, h2⟩

/-! ## Curvature that varies by a factor of sixteen -/

/-- `5/8 x² + 25/32 sqrt(1 + 24 x²)` -/
noncomputable def gorge : Landscape ℝ := basin (5 / 8) (25 / 32) 24 (by norm_num)

theorem sqrt25 : √(1 + 24 * 1 : ℝ) = 5 := by
  rw [show (1 + 24 * 1 : ℝ) = 5 ^ 2 by norm_num]
  exact Real.sqrt_sq (by norm_num)

section
variable {x : ℝ} (hx : x ^ 2 = 1)
include hx

theorem gorge_energy : gorge.energy x = 145 / 32 := by
  simp only [gorge, basin, hx, sqrt25]; norm_num

theorem gorge_gradient : gorge.gradient x = 5 * x := by
  simp only [gorge, basin, hx, sqrt25]; ring

theorem gorge_N : N gorge x = 25 := by
  rw [N]
  show inner ℝ (gorge.gradient x) (gorge.gradient x) = 25
  rw [gorge_gradient hx]
  simp only [RCLike.inner_apply, conj_trivial]
  linarith

theorem gorge_seen : seen gorge x (-(5 * x)) (-25) = 125 / 4 := by
  rw [seen, gorge_energy hx]
  have : x + (1 / 5 : ℝ) • -(5 * x) = 0 := by rw [smul_eq_mul]; ring
  rw [this]
  simp [gorge, basin]
  norm_num

theorem gorge_next : x + aim gorge x (-(5 * x)) (-25) • -(5 * x) = -x := by
  rw [aim, gorge_seen hx, smul_eq_mul]
  ring

end

/-- the driver's variables at one of the two points -/
def AtRim (v : Vars ℝ ℝ ℝ) : Prop := v.pt ^ 2 = 1 ∧ Steep gorge v ∧ v.fr = v.slope

theorem AtRim.facts {v : Vars ℝ ℝ ℝ} (h : AtRim v) : v.slope = -25 ∧ v.dir = -(5 * v.pt) := by
  obtain ⟨h1, h2, -⟩ := h
  refine ⟨by rw [h2.1, gorge_N h1], ?_⟩
  rw [h2.2]
  show -gorge.gradient v.pt = _
  rw [gorge_gradient h1]

theorem AtRim.go {v : Vars ℝ ℝ ℝ} (h : AtRim v) : 0 < seen gorge v.pt v.dir v.slope ∧
    gorge.energy (v.pt + aim gorge v.pt v.dir v.slope • v.dir) ≤ gorge.energy v.pt ∧
    v.pt + aim gorge v.pt v.dir v.slope • v.dir = -v.pt := by
  obtain ⟨h1, h2⟩ := h.facts
  rw [h1, h2, gorge_next h.1, gorge_seen h.1, gorge_energy h.1, gorge_energy (by rw [neg_sq]; exact h.1)]
  norm_num

theorem AtRim.conj {v v' : Vars ℝ ℝ ℝ} (h : AtRim v) (hp : v'.pt = -v.pt) :
    -N gorge v'.pt + -N gorge v'.pt / v.fr * inner ℝ v.dir (gorge.gradient v'.pt) = 0 := by
  obtain ⟨h1, h2⟩ := h.facts
  have hx : v'.pt ^ 2 = 1 := by rw [hp, neg_sq]; exact h.1
  rw [gorge_N hx, h.2.2, h1, h2, gorge_gradient hx, hp]
  simp only [RCLike.inner_apply, conj_trivial]
  have := h.1
  linear_combination 25 * this

theorem rim_start : AtRim { pt := 1, dir := -gorge.K (gorge.gradient 1), slope := -N gorge 1, fr := -N gorge 1 } :=
  ⟨one_pow 2, ⟨rfl, rfl⟩, rfl⟩

theorem gorge_run {prm : NlcgParams ℝ} (hr : prm.restart ≠ 0) (htol : 0 < prm.tol) (fuel rank : ℕ) (w : NState ℝ ℝ) :
    ∃ o w', nlcg (gorge.ops 1) prm (fuel + 1) rank w = some (o, w') ∧
      LoopRun (gorge.ops 1) prm (fuel + 1) rank prm.maxiter.toNat 0
        { pt := 1, dir := -gorge.K (gorge.gradient 1), slope := -N gorge 1, fr := -N gorge 1 }
        { s := 1, file := [], info := { vals := none, converged := false }, force := false, trace := [] } o w' := by
  refine whole hr (fun v => AtRim v ∨ v.slope = 0) (.inl rim_start) ?_ ?_ w
  · rintro v w hv (h | h) ht
    · exact ⟨h.go.1, h.go.2.1⟩
    · exact absurd h (big htol ht).1
  · rintro i v v' w w' hv (h | h) ht hp hv' h1 h2
    · rw [h.go.2.2] at hp
      by_cases hd : prm.restart ∣ (i : ℤ)
      · exact .inl ⟨by rw [hp, neg_sq]; exact h.1, h1 hd⟩
      · exact .inr (h2 hd (h.conj hp))
    · exact absurd h (big htol ht).1

theorem gorge_clean : (gorge.ops 1).Clean := by
  constructor <;> intros <;> exact ⟨nofun, nofun⟩

theorem gorge_stuck {prm : NlcgParams ℝ} (hr : prm.restart = 1) (htol : prm.tol ≤ 25) {fuel rank n i : ℕ}
    {v : Vars ℝ ℝ ℝ} {w : NState ℝ ℝ} {o : Res (Info ℝ)} {w' : NState ℝ ℝ}
    (h : LoopRun (gorge.ops 1) prm (fuel + 1) rank n i v w o w') :
    AtRim v → w.s = v.pt → w.info.converged = false →
      ∃ info, o = .ok info ∧ info.converged = false ∧ w'.s ^ 2 = 1 := by
  have hb : ∀ {v : Vars ℝ ℝ ℝ}, AtRim v → (Arith.abs v.slope <ᶠ prm.tol) = false := by
    intro v hv
    rw [hv.facts.1]
    simp only [real_abs, real_lt, decide_eq_false_iff_not, not_lt]
    norm_num
    exact htol
  have go : ∀ {i : ℕ} {v : Vars ℝ ℝ ℝ} {w w1 : NState ℝ ℝ} {o : Res (Vars ℝ ℝ ℝ)}, AtRim v → w.s = v.pt →
      BodyRun (gorge.ops 1) prm (fuel + 1) rank i v (started i v.slope w) o w1 → ∃ v', o = .ok v' ∧ AtRim v' ∧ w1.s = v'.pt := by
    intro i v w w1 o hv hw h
    obtain ⟨v', e1, e2, e3, e4, -⟩ := body gorge h (Steep.ok gorge hv.2.1 hw) hv.go.1 hv.go.2.1 (by omega)
    rw [hv.go.2.2] at e2
    exact ⟨v', e1, ⟨by rw [e2, neg_sq]; exact hv.1, e4 (by rw [hr]; exact one_dvd _)⟩, e3.state⟩
  induction h with
  | limit i v w => intro hv hw hc; exact ⟨_, rfl, hc, by rw [hw]; exact hv.1⟩
  | success n i v w s1 s2 file' h1 h2 h3 => intro hv; rw [hb hv] at h1; simp at h1
  | successJson n i v w o s1 file' h1 h2 h3 => intro hv; rw [hb hv] at h1; simp at h1
  | successPrint n i v w s1 file' o s2 h1 h2 h3 h4 => intro hv; rw [hb hv] at h1; simp at h1
  | step n i v w v' w1 o w' h1 h2 h3 ih =>
    intro hv hw _
    obtain ⟨v'', e1, e2, e3⟩ := go hv hw h2
    obtain rfl := Res.ok.inj e1
    obtain ⟨_, _, _, _, -, -, -, -, hc⟩ := (h2.spec gorge_clean).1 _ rfl
    exact ih e2 e3 hc
  | caught n i v w e w1 h1 h2 h3 =>
    intro hv hw _
    obtain ⟨v'', e1, -⟩ := go hv hw h2
    exact absurd e1 (by simp)
  | uncaught n i v w o w1 h1 h2 h3 =>
    intro hv hw _
    obtain ⟨v'', rfl, -⟩ := go hv hw h2
    simp_all [Res.isOk]

/-- **C106 is false without the bound on the curvature.** There is a smooth, strongly convex energy on the line, of
curvature between `5/4` and `20`, on which steepest descent (restart interval 1) never gets anywhere: whatever the
iteration limit, and for every tolerance up to 25, the run ends without convergence, with the energy it started from. -/
theorem C106_not_curved : ∃ q : Landscape ℝ, q.Curved LinearMap.id (5 / 4) 20 ∧ q.energy 0 < q.energy 1 ∧
    ∀ (prm : NlcgParams ℝ) (fuel rank : ℕ) (w : NState ℝ ℝ), prm.restart = 1 → 0 < prm.tol → prm.tol ≤ 25 →
      ∃ info w', nlcg (q.ops 1) prm (fuel + 1) rank w = some (.ok info, w') ∧ info.converged = false ∧
        q.energy w'.s = q.energy 1 := by
  refine ⟨gorge, ?_, ?_, ?_⟩
  · have := basin_curved (a := 5 / 8) (b := 25 / 32) (k := 24) (by norm_num) (by norm_num)
    norm_num at this
    exact this
  · rw [gorge_energy (one_pow 2)]
    simp [gorge, basin]
    norm_num
  · intro prm fuel rank w hr h0 htol
    obtain ⟨o, w', h1, h2⟩ := gorge_run (by omega) h0 fuel rank w
    obtain ⟨info, rfl, e1, e2⟩ := gorge_stuck hr htol h2 rim_start rfl rfl
    exact ⟨info, w', h1, e1, by rw [gorge_energy e2, gorge_energy (one_pow 2)]⟩

/-- With any other restart interval the run on the same energy, from the same point, reports convergence in its third
iteration, at the energy it started from and with a gradient of size 5: the direction it would follow next is zero. -/
theorem C106_not_stationary : ∃ q : Landscape ℝ, q.Curved LinearMap.id (5 / 4) 20 ∧ q.energy 0 < q.energy 1 ∧
    ∀ (prm : NlcgParams ℝ) (fuel rank : ℕ) (w : NState ℝ ℝ), 2 ≤ prm.restart → 3 ≤ prm.maxiter → 0 < prm.tol →
      prm.tol ≤ 25 →
      ∃ vals w', nlcg (q.ops 1) prm (fuel + 1) rank w = some (.ok { vals := some vals, converged := true }, w') ∧
        vals.iter = 2 ∧ vals.F = q.energy 1 ∧ w'.s = 1 ∧ q.gradient w'.s = 5 := by
  refine ⟨gorge, ?_, ?_, ?_⟩
  · have := basin_curved (a := 5 / 8) (b := 25 / 32) (k := 24) (by norm_num) (by norm_num)
    norm_num at this
    exact this
  · rw [gorge_energy (one_pow 2)]
    simp [gorge, basin]
    norm_num
  · intro prm fuel rank w hr hmax h0 htol
    obtain ⟨o, w', h1, h2⟩ := gorge_run (by omega) h0 fuel rank w
    have hb : ∀ {v : Vars ℝ ℝ ℝ}, AtRim v → (Arith.abs v.slope <ᶠ prm.tol) = false := by
      intro v hv
      rw [hv.facts.1]
      simp only [real_abs, real_lt, decide_eq_false_iff_not, not_lt]
      norm_num
      exact htol
    -- an iteration at one of the two points
    have one : ∀ {n i : ℕ} {v : Vars ℝ ℝ ℝ} {w : NState ℝ ℝ},
        LoopRun (gorge.ops 1) prm (fuel + 1) rank (n + 1) i v w o w' → AtRim v → w.s = v.pt →
        ∃ v' w1, LoopRun (gorge.ops 1) prm (fuel + 1) rank n (i + 1) v' w1 o w' ∧ v'.pt = -v.pt ∧ w1.s = v'.pt ∧
          (prm.restart ∣ (i : ℤ) → AtRim v') ∧ (¬ prm.restart ∣ (i : ℤ) → v'.slope = 0) := by
      intro n i v w h hv hw
      have go : ∀ {o w1}, BodyRun (gorge.ops 1) prm (fuel + 1) rank i v (started i v.slope w) o w1 →
          ∃ v', o = .ok v' ∧ v'.pt = -v.pt ∧ w1.s = v'.pt ∧
          (prm.restart ∣ (i : ℤ) → AtRim v') ∧ (¬ prm.restart ∣ (i : ℤ) → v'.slope = 0) := by
        intro o w1 h
        obtain ⟨v', e1, e2, e3, e4, e5⟩ := body gorge h (Steep.ok gorge hv.2.1 hw) hv.go.1 hv.go.2.1 (by omega)
        rw [hv.go.2.2] at e2
        exact ⟨v', e1, e2, e3.state, fun hd => ⟨by rw [e2, neg_sq]; exact hv.1, e4 hd⟩, fun hd => e5 hd (hv.conj e2)⟩
      cases h with
      | success _ _ _ _ s1 s2 file' g1 => rw [hb hv] at g1; simp at g1
      | successJson _ _ _ _ o s1 file' g1 => rw [hb hv] at g1; simp at g1
      | successPrint _ _ _ _ s1 file' o s2 g1 => rw [hb hv] at g1; simp at g1
      | step _ _ _ _ v' w1 _ _ g1 g2 g3 =>
        obtain ⟨v'', e1, e2⟩ := go g2
        obtain rfl := Res.ok.inj e1
        exact ⟨_, _, g3, e2⟩
      | caught _ _ _ _ e _ g1 g2 g3 =>
        obtain ⟨v'', e1, -⟩ := go g2
        exact absurd e1 (by simp)
      | uncaught _ _ _ _ o _ g1 g2 g3 =>
        obtain ⟨v'', rfl, -⟩ := go g2
        simp_all [Res.isOk]
    obtain ⟨n, hn⟩ : ∃ n, prm.maxiter.toNat = n + 1 + 1 + 1 := ⟨prm.maxiter.toNat - 3, by omega⟩
    rw [hn] at h2
    obtain ⟨v1, w1, a1, a2, a3, a4, -⟩ := one h2 rim_start rfl
    obtain ⟨v2, w2, b1, b2, b3, -, b5⟩ := one a1 (a4 (by simp)) a3
    have hz : v2.slope = 0 := b5 (by
      intro hd
      have := Int.le_of_dvd (by norm_num) hd
      push_cast at this
      omega)
    have hp : v2.pt = 1 := by rw [b2, a2]; norm_num
    have hs : (Arith.abs v2.slope <ᶠ prm.tol) = true := by
      rw [hz]
      simpa using h0
    cases b1 with
    | success _ _ _ _ s1 s2 file' g1 g2 g3 =>
      obtain ⟨-, rfl⟩ := json_ok g2
      simp only [Landscape.ops, Prod.mk.injEq] at g3
      obtain ⟨-, rfl⟩ := g3
      refine ⟨_, _, h1, rfl, ?_, ?_, ?_⟩
      · show gorge.energy w2.s = _
        rw [b3, hp]
      · show w2.s = 1
        rw [b3, hp]
      · show gorge.gradient w2.s = 5
        rw [b3, hp, gorge_gradient (one_pow 2)]; norm_num
    | successJson _ _ _ _ o s1 file' g1 g2 g3 => rw [(json_ok g2).1] at g3; simp [Res.isOk] at g3
    | successPrint _ _ _ _ s1 file' o s2 g1 g2 g3 g4 =>
      simp only [Landscape.ops, Prod.mk.injEq] at g3
      rw [← g3.1] at g4; simp [Res.isOk] at g4
    | step _ _ _ _ v' w1 _ _ g1 g2 g3 => rw [hs] at g1; simp at g1
    | caught _ _ _ _ e _ g1 g2 g3 => rw [hs] at g1; simp at g1
    | uncaught _ _ _ _ o _ g1 g2 g3 => rw [hs] at g1; simp at g1

end Nlcg
