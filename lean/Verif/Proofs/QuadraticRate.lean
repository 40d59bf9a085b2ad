import Verif.Proofs.Quadratic

/-! Runs on quadratic energies with arbitrary restart intervals. -/

namespace Nlcg
open Spec Arith
variable {V : Type} [NormedAddCommGroup V] [InnerProductSpace ℝ V]

namespace Quad
variable (q : Quadratic V)

theorem posA_nonneg (x : V) : 0 ≤ inner ℝ x (q.A x) := by
  by_cases h : x = 0
  · simp [h]
  · exact (q.posA x h).le

/-- the energy is no more curved along a conjugated direction than along the gradient -/
theorem Inv.curv_le {x0 : V} {k : ℕ} (h : Inv q x0 k) : inner ℝ (cg q x0 k).2 (q.A (cg q x0 k).2) ≤
    inner ℝ (q.K (q.gradient (cg q x0 k).1)) (q.A (q.K (q.gradient (cg q x0 k).1))) := by
  cases k with
  | zero => simp [cg]
  | succ k =>
    have hc := h.conj k (by omega)
    have hc' : inner ℝ (cg q x0 k).2 (q.A (cg q x0 (k + 1)).2) = 0 := by
      rw [← q.symA, real_inner_comm]; exact hc
    have hg : q.K (q.gradient (cg q x0 (k + 1)).1) =
        (N q (cg q x0 (k + 1)).1 / N q (cg q x0 k).1) • (cg q x0 k).2 - (cg q x0 (k + 1)).2 := by
      rw [cg_snd]; abel
    rw [hg]
    generalize N q (cg q x0 (k + 1)).1 / N q (cg q x0 k).1 = β
    simp only [map_sub, map_smul, inner_sub_left, inner_sub_right, inner_smul_left, inner_smul_right, conj_trivial, hc, hc']
    have := mul_nonneg (mul_self_nonneg β) (posA_nonneg q (cg q x0 k).2)
    linarith

/-- the energy falls by at least `N / (2 L)` -/
theorem decrease {x d : V} {L : ℝ} (hL : 0 < L) (hN : inner ℝ (q.gradient x) d = -N q x) (hc : 0 < inner ℝ d (q.A d))
    (hd : inner ℝ d (q.A d) ≤ L * N q x) (hp : 0 < N q x) :
    q.energy (x + step q x d • d) ≤ q.energy x - N q x / (2 * L) := by
  rw [energy_step, step, hN, neg_neg]
  generalize inner ℝ d (q.A d) = c at *
  generalize N q x = n at *
  have e : q.energy x + -n * (n / c) + c / 2 * (n / c) ^ 2 = q.energy x - n * n / (2 * c) := by
    field_simp
    ring
  have : n / (2 * L) ≤ n * n / (2 * c) := by
    rw [div_le_div_iff₀ (by positivity) (by positivity)]
    nlinarith
  rw [e]
  linarith

/-- the variables at the start of an iteration, some steps after a restart -/
def Cycle (v : Vars ℝ V V) (w : NState ℝ V) : Prop := ∃ x k, ∀ n, At q x n k v w

theorem Cycle.fresh {v : Vars ℝ V V} {w : NState ℝ V} (h1 : w.s = v.pt) (h2 : v.slope = -N q v.pt) (h3 : v.fr = v.slope)
    (h4 : v.dir = -q.K (q.gradient v.pt)) : Cycle q v w :=
  ⟨v.pt, 0, fun _ => ⟨rfl, h1, h2, by simp, fun _ => ⟨h4, h3⟩⟩⟩

theorem Cycle.next {x0 : V} {prm : NlcgParams ℝ} {fuel rank i : ℕ} {v : Vars ℝ V V} {w w1 : NState ℝ V}
    {o : Res (Vars ℝ V V)} {L : ℝ} (hL : 0 < L)
    (hLA : ∀ g, inner ℝ (q.K g) (q.A (q.K g)) ≤ L * inner ℝ g (q.K g)) (hr : prm.restart ≠ 0) (h : Cycle q v w)
    (hg : q.gradient v.pt ≠ 0) (hb : BodyRun (q.ops x0) prm (fuel + 1) rank i v (started i v.slope w) o w1) :
    ∃ v', o = .ok v' ∧ Cycle q v' w1 ∧ q.energy v'.pt ≤ q.energy v.pt - N q v.pt / (2 * L) := by
  obtain ⟨x, k, h⟩ := h
  have hk := h (k + 1)
  have hdir := (hk.dir (by omega)).1
  have hinv := inv_all q k hk.nonzero
  obtain ⟨a1, a2, a3⟩ := hk.search q (by omega) hg
  obtain ⟨v', rfl, b2, b3, b4, b5, b6⟩ := body q hb hk.state a1 a2 a3 hr
  refine ⟨v', rfl, ?_, ?_⟩
  · rcases b6 with ⟨-, c⟩ | ⟨c, -⟩
    · exact Cycle.fresh q b3 b4 b5 c
    · refine ⟨x, k + 1, fun n => ?_⟩
      obtain ⟨v'', e1, e2⟩ := (h (max n (k + 1))).next q (by omega) hg hr (fun _ => c) hb
      obtain rfl := Res.ok.inj e1
      exact ⟨e2.pt, e2.state, e2.slope, e2.nonzero, fun hn => e2.dir (by omega)⟩
  · rw [b2]
    refine decrease q hL (by rw [← a2, hk.slope]) a1 ?_ (N_pos q hg)
    rw [hdir]
    refine (hinv.curv_le q).trans ?_
    rw [hk.pt]
    exact hLA _

theorem count {x0 : V} {prm : NlcgParams ℝ} {fuel rank : ℕ} {L E : ℝ} (hL : 0 < L)
    (hLA : ∀ g, inner ℝ (q.K g) (q.A (q.K g)) ≤ L * inner ℝ g (q.K g)) (hE : ∀ x, E ≤ q.energy x)
    (htol : 0 < prm.tol) (hr : prm.restart ≠ 0)
    {m i : ℕ} {v : Vars ℝ V V} {w : NState ℝ V} {o : Res (Info ℝ)} {w' : NState ℝ V}
    (h : LoopRun (q.ops x0) prm (fuel + 1) rank m i v w o w') :
    Cycle q v w → (i : ℝ) * prm.tol ≤ 2 * L * (q.energy x0 - q.energy v.pt) →
      2 * L * (q.energy x0 - E) < (i + m : ℕ) * prm.tol →
      ∃ vals, o = .ok { vals := some vals, converged := true } ∧
        (vals.iter : ℝ) * prm.tol ≤ 2 * L * (q.energy x0 - vals.F) ∧
        vals.F = q.energy w'.s ∧ N q w'.s < prm.tol := by
  have json : ∀ {i : ℕ} {slope : ℝ} {pt : V} {w : NState ℝ V} {o : Res Unit} {s1 : V} {file'},
      JsonRun (q.ops x0) rank i slope pt w o s1 file' → o = .ok () ∧ s1 = w.s := by
    intro i slope pt w o s1 file' h
    have h1 := h.1
    split at h1
    all_goals
      simp only [Quadratic.ops, Prod.mk.injEq] at h1
      exact ⟨h1.1, h1.2⟩
  have hslope : ∀ {v : Vars ℝ V V} {w : NState ℝ V}, Cycle q v w → v.slope = -N q v.pt ∧ w.s = v.pt := by
    rintro v w ⟨x, k, h⟩
    exact ⟨(h 0).slope, (h 0).state⟩
  induction h with
  | limit i v w =>
    intro hc hi hm
    have := hE v.pt
    simp only [Nat.add_zero] at hm
    have : 2 * L * (q.energy x0 - q.energy v.pt) ≤ 2 * L * (q.energy x0 - E) :=
      mul_le_mul_of_nonneg_left (by linarith) (by positivity)
    linarith
  | success m i v w s1 s2 file' h1 h2 h3 =>
    intro hc hi hm
    obtain ⟨-, rfl⟩ := json h2
    simp only [Quadratic.ops, Prod.mk.injEq] at h3
    obtain ⟨-, rfl⟩ := h3
    obtain ⟨hs, hw⟩ := hslope hc
    refine ⟨_, rfl, ?_, rfl, ?_⟩
    · show (i : ℝ) * prm.tol ≤ 2 * L * (q.energy x0 - q.energy w.s)
      rw [hw]; exact hi
    · rw [hs] at h1
      simp only [real_abs, real_lt, abs_neg, decide_eq_true_eq] at h1
      show N q w.s < _
      rw [hw]
      exact (le_abs_self _).trans_lt h1
  | successJson m i v w o s1 file' h1 h2 h3 => rw [(json h2).1] at h3; simp [Res.isOk] at h3
  | successPrint m i v w s1 file' o s2 h1 h2 h3 h4 =>
    simp only [Quadratic.ops, Prod.mk.injEq] at h3
    rw [← h3.1] at h4; simp [Res.isOk] at h4
  | step m i v w v' w1 o w' h1 h2 h3 ih =>
    intro hc hi hm
    obtain ⟨hs, -⟩ := hslope hc
    have hg := small q htol hs h1
    obtain ⟨v'', e1, e2, e3⟩ := hc.next q hL hLA hr hg h2
    obtain rfl := Res.ok.inj e1
    refine ih e2 ?_ ?_
    · have hN : prm.tol ≤ N q v.pt := by
        rw [hs] at h1
        simp only [real_abs, real_lt, abs_neg, decide_eq_false_iff_not, not_lt] at h1
        rwa [abs_of_pos (N_pos q hg)] at h1
      have : prm.tol ≤ 2 * L * (q.energy v.pt - q.energy v'.pt) := by
        have h5 : N q v.pt / (2 * L) ≤ q.energy v.pt - q.energy v'.pt := by linarith
        rw [div_le_iff₀ (by positivity)] at h5
        linarith
      push_cast
      linarith
    · have : i + 1 + m = i + (m + 1) := by omega
      rw [this]; exact hm
  | caught m i v w e w1 h1 h2 h3 =>
    intro hc hi hm
    obtain ⟨v'', e1, -⟩ := hc.next q hL hLA hr (small q htol (hslope hc).1 h1) h2
    simp at e1
  | uncaught m i v w o w1 h1 h2 h3 h4 =>
    intro hc hi hm
    obtain ⟨v'', e1, -⟩ := hc.next q hL hLA hr (small q htol (hslope hc).1 h1) h2
    rw [e1] at h3; simp [Res.isOk] at h3

/-- the whole run with a given number of iterations -/
theorem whole {x0 : V} {prm : NlcgParams ℝ} {fuel rank : ℕ} (htol : 0 < prm.tol) (hr : prm.restart ≠ 0) (w : NState ℝ V) :
    ∃ o w', nlcg (q.ops x0) prm (fuel + 1) rank w = some (o, w') ∧
      LoopRun (q.ops x0) prm (fuel + 1) rank prm.maxiter.toNat 0
        { pt := x0, dir := -q.K (q.gradient x0), slope := -N q x0, fr := -N q x0 }
        { s := x0, file := [], info := { vals := none, converged := false }, force := false, trace := [] } o w' := by
  cases h : nlcg (q.ops x0) prm (fuel + 1) rank w with
  | none => exact absurd h (ends q fuel rank htol hr w)
  | some p =>
    obtain ⟨o, w'⟩ := p
    refine ⟨o, w', rfl, ?_⟩
    cases nlcg_run (q.ops x0) prm (fuel + 1) rank w _ _ h with
    | construct o s1 h1 h2 => simp only [Quadratic.ops, Prod.mk.injEq] at h1; rw [← h1.1] at h2; simp [Res.isOk] at h2
    | setup s1 o s2 h1 h2 h3 => simp only [Quadratic.ops, Prod.mk.injEq] at h2; rw [← h2.1] at h3; simp [Res.isOk] at h3
    | restarted s1 pt s2 o s3 h1 h2 h3 h4 =>
      simp only [Quadratic.ops, Prod.mk.injEq] at h3; rw [← h3.1] at h4; simp [Res.isOk] at h4
    | loop s1 pt s2 slope dir s3 o w' h1 h2 h3 h4 =>
      simp only [Quadratic.ops, Prod.mk.injEq, Res.ok.injEq] at h2 h3
      obtain ⟨rfl, rfl⟩ := h2
      obtain ⟨⟨rfl, rfl⟩, rfl⟩ := h3
      exact h4

end Quad
end Nlcg
