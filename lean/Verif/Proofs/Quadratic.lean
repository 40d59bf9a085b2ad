import Verif.Proofs.DriverTotal
import Verif.Spec.Quadratic

/-! The method of conjugate gradients on a quadratic energy. -/

namespace Nlcg
open Spec Arith
variable {V : Type} [NormedAddCommGroup V] [InnerProductSpace ℝ V]

namespace Quad

/-- squared norm of the gradient -/
noncomputable def N (q : Quadratic V) (x : V) : ℝ := inner ℝ (q.gradient x) (q.K (q.gradient x))

/-- the step to the minimum along `d` -/
noncomputable def step (q : Quadratic V) (x d : V) : ℝ := -inner ℝ (q.gradient x) d / inner ℝ d (q.A d)

/-- point and direction after `k` conjugated steps -/
noncomputable def cg (q : Quadratic V) (x0 : V) : ℕ → V × V
  | 0 => (x0, -q.K (q.gradient x0))
  | k + 1 =>
    let p := cg q x0 k
    let x := p.1 + step q p.1 p.2 • p.2
    (x, -q.K (q.gradient x) + (N q x / N q p.1) • p.2)

variable (q : Quadratic V)

theorem N_pos {x : V} (h : q.gradient x ≠ 0) : 0 < N q x := q.posK _ h

theorem gradient_step (x d : V) (t : ℝ) : q.gradient (x + t • d) = q.gradient x + t • q.A d := by
  simp only [Quadratic.gradient, map_add, map_smul]
  abel

theorem energy_step (x d : V) (t : ℝ) :
    q.energy (x + t • d) = q.energy x + inner ℝ (q.gradient x) d * t + inner ℝ d (q.A d) / 2 * t ^ 2 := by
  simp only [Quadratic.energy, Quadratic.gradient, map_add, map_smul, inner_add_left, inner_add_right, inner_sub_left,
    inner_smul_left, inner_smul_right, conj_trivial, q.symA x d]
  have : inner ℝ d (q.A x) = inner ℝ x (q.A d) := by rw [← q.symA, real_inner_comm]
  rw [this]
  ring

/-- what holds after `k` steps -/
structure Inv (x0 : V) (k : ℕ) : Prop where
  own : inner ℝ (q.gradient (cg q x0 k).1) (cg q x0 k).2 = -N q (cg q x0 k).1
  grad : ∀ j < k, inner ℝ (q.gradient (cg q x0 k).1) (q.K (q.gradient (cg q x0 j).1)) = 0
  dir : ∀ j < k, inner ℝ (q.gradient (cg q x0 k).1) (cg q x0 j).2 = 0
  conj : ∀ j < k, inner ℝ (cg q x0 k).2 (q.A (cg q x0 j).2) = 0

theorem inv_zero (x0 : V) : Inv q x0 0 :=
  ⟨by simp [cg, N, inner_neg_right], by simp, by simp, by simp⟩

theorem cg_fst (x0 : V) (k : ℕ) : (cg q x0 (k + 1)).1 =
    (cg q x0 k).1 + step q (cg q x0 k).1 (cg q x0 k).2 • (cg q x0 k).2 := rfl

theorem cg_snd (x0 : V) (k : ℕ) : (cg q x0 (k + 1)).2 = -q.K (q.gradient (cg q x0 (k + 1)).1) +
    (N q (cg q x0 (k + 1)).1 / N q (cg q x0 k).1) • (cg q x0 k).2 := rfl

theorem cg_gradient (x0 : V) (k : ℕ) : q.gradient (cg q x0 (k + 1)).1 =
    q.gradient (cg q x0 k).1 + step q (cg q x0 k).1 (cg q x0 k).2 • q.A (cg q x0 k).2 := by
  rw [cg_fst, gradient_step]

theorem Inv.curv_pos {x0 : V} {k : ℕ} (h : Inv q x0 k) (hg : q.gradient (cg q x0 k).1 ≠ 0) :
    0 < inner ℝ (cg q x0 k).2 (q.A (cg q x0 k).2) := by
  apply q.posA
  intro h0
  have := h.own
  rw [h0, inner_zero_right] at this
  linarith [N_pos q hg]

theorem Inv.step_eq {x0 : V} {k : ℕ} (h : Inv q x0 k) : step q (cg q x0 k).1 (cg q x0 k).2 =
    N q (cg q x0 k).1 / inner ℝ (cg q x0 k).2 (q.A (cg q x0 k).2) := by
  rw [step, h.own, neg_neg]

theorem Inv.step_pos {x0 : V} {k : ℕ} (h : Inv q x0 k) (hg : q.gradient (cg q x0 k).1 ≠ 0) :
    0 < step q (cg q x0 k).1 (cg q x0 k).2 := by
  rw [h.step_eq]
  exact div_pos (N_pos q hg) (h.curv_pos q hg)

theorem inv_succ {x0 : V} {k : ℕ} (hi : ∀ j ≤ k, Inv q x0 j) (hg : ∀ j ≤ k, q.gradient (cg q x0 j).1 ≠ 0) :
    Inv q x0 (k + 1) := by
  have h := hi k le_rfl
  have hc := h.curv_pos q (hg k le_rfl)
  have hdir : ∀ j < k + 1, inner ℝ (q.gradient (cg q x0 (k + 1)).1) (cg q x0 j).2 = 0 := by
    intro j hj
    rw [cg_gradient, inner_add_left, inner_smul_left, conj_trivial]
    rcases Nat.lt_succ_iff_lt_or_eq.1 hj with hj | rfl
    · rw [h.dir j hj, q.symA, h.conj j hj]; simp
    · rw [h.own, h.step_eq, q.symA]
      field_simp
      ring
  have hgrad : ∀ j < k + 1, inner ℝ (q.gradient (cg q x0 (k + 1)).1) (q.K (q.gradient (cg q x0 j).1)) = 0 := by
    intro j hj
    cases j with
    | zero =>
      have := hdir 0 hj
      simpa [cg, inner_neg_right] using this
    | succ j =>
      have a := hdir (j + 1) hj
      rw [cg_snd, inner_add_right, inner_neg_right, inner_smul_right, hdir j (by omega)] at a
      linarith
  have hown : inner ℝ (q.gradient (cg q x0 (k + 1)).1) (cg q x0 (k + 1)).2 = -N q (cg q x0 (k + 1)).1 := by
    rw [cg_snd, inner_add_right, inner_neg_right, inner_smul_right, hdir k (by omega)]
    simp [N]
  refine ⟨hown, hgrad, hdir, ?_⟩
  intro j hj
  have hs := (hi j (by omega)).step_pos q (hg j (by omega))
  -- `A d_j` is a difference of gradients
  have hA : q.A (cg q x0 j).2 = (step q (cg q x0 j).1 (cg q x0 j).2)⁻¹ •
      (q.gradient (cg q x0 (j + 1)).1 - q.gradient (cg q x0 j).1) := by
    rw [cg_gradient, add_sub_cancel_left, smul_smul, inv_mul_cancel₀ hs.ne', one_smul]
  have hK : inner ℝ (q.K (q.gradient (cg q x0 (k + 1)).1)) (q.A (cg q x0 j).2) =
      (step q (cg q x0 j).1 (cg q x0 j).2)⁻¹ *
        inner ℝ (q.gradient (cg q x0 (k + 1)).1) (q.K (q.gradient (cg q x0 (j + 1)).1)) := by
    rw [hA, inner_smul_right, inner_sub_right, q.symK, q.symK, hgrad j hj, sub_zero]
  rw [cg_snd, inner_add_left, inner_neg_left, inner_smul_left, conj_trivial, hK]
  rcases Nat.lt_succ_iff_lt_or_eq.1 hj with hj | rfl
  · rw [hgrad (j + 1) (by omega), h.conj j hj]; simp
  · rw [h.step_eq]
    have hN := N_pos q (hg j le_rfl)
    change -((_)⁻¹ * N q (cg q x0 (j + 1)).1) + _ = 0
    field_simp
    ring

theorem inv_all {x0 : V} (k : ℕ) (hg : ∀ j < k, q.gradient (cg q x0 j).1 ≠ 0) : Inv q x0 k := by
  induction k using Nat.strong_induction_on with
  | _ k ih =>
    cases k with
    | zero => exact inv_zero q x0
    | succ k =>
      exact inv_succ q (fun j hj => ih j (by omega) fun i hi => hg i (by omega)) fun j hj => hg j (by omega)

/-- the gradient vanishes after at most as many steps as there are dimensions -/
theorem gradient_vanishes [FiniteDimensional ℝ V] (x0 : V) :
    ∃ k ≤ Module.finrank ℝ V, q.gradient (cg q x0 k).1 = 0 := by
  by_contra hcon
  push Not at hcon
  let g : Fin (Module.finrank ℝ V + 1) → V := fun i => q.gradient (cg q x0 i).1
  have horth : ∀ i j, i ≠ j → inner ℝ (g i) (q.K (g j)) = 0 := by
    intro i j hij
    rcases lt_or_gt_of_ne hij with h | h
    · rw [← q.symK, real_inner_comm]
      exact (inv_all q (j : ℕ) fun l hl => hcon l (by omega)).grad i h
    · exact (inv_all q (i : ℕ) fun l hl => hcon l (by omega)).grad j h
  have hli : LinearIndependent ℝ g := by
    rw [Fintype.linearIndependent_iff]
    intro c hc i
    have h1 : inner ℝ (∑ j, c j • g j) (q.K (g i)) = 0 := by rw [hc, inner_zero_left]
    rw [sum_inner, Finset.sum_eq_single i] at h1
    · rw [inner_smul_left, conj_trivial] at h1
      have := q.posK (g i) (hcon i (by omega))
      rcases mul_eq_zero.1 h1 with h | h
      · exact h
      · exact absurd h this.ne'
    · intro j _ hj
      rw [inner_smul_left, horth j i hj, mul_zero]
    · simp
  have := hli.fintype_card_le_finrank
  simp at this

/-! ## The search and the run -/

theorem search_exact (x d : V) (x0 : V) (hc : 0 < inner ℝ d (q.A d)) (slope : ℝ)
    (hs : slope = inner ℝ (q.gradient x) d) (hn : slope ≤ 0) (tau : ℝ) (fuel : ℕ) (force : Bool) :
    lineSearch { G := (q.ops x0).geo x d, getF := (q.ops x0).getF } { tTrial := lit (2 / 10), tau := tau } (fuel + 1) slope
      { s := x, forceRestart := force, evals := [] } =
    some (.ok (x + step q x d • d),
      { s := x + step q x d • d, forceRestart := false, evals := [step q x d, lit (2 / 10)] }) := by
  have ht : (lit (2 / 10) : ℝ) = 1 / 5 := by norm_num [Arith.lit]
  have hcurv : qCurv (q.energy x) slope (q.energy (x + (lit (2 / 10) : ℝ) • d)) (lit (2 / 10) : ℝ) = inner ℝ d (q.A d) / 2 := by
    rw [energy_step, ht, ← hs]
    simp only [qCurv, real_div, real_sub, real_mul]
    field_simp
    ring
  have hmin : qMin slope (inner ℝ d (q.A d) / 2) = step q x d := by
    simp only [qMin, real_div, real_neg, real_mul, real_lit, step, hs]
    push_cast
    congr 1
    ring
  have hle : ¬ (q.energy x < q.energy (x + step q x d • d)) := by
    rw [energy_step, ← hs, step, ← hs, not_lt]
    have : slope * (-slope / inner ℝ d (q.A d)) + inner ℝ d (q.A d) / 2 * (-slope / inner ℝ d (q.A d)) ^ 2 =
        -(slope ^ 2 / (2 * inner ℝ d (q.A d))) := by field_simp; ring
    have h2 : 0 ≤ slope ^ 2 / (2 * inner ℝ d (q.A d)) := by positivity
    linarith
  have hloop : qlineLoop { G := (q.ops x0).geo x d, getF := (q.ops x0).getF } (q.energy x) slope (fuel + 1) (lit (2 / 10))
      { s := x, forceRestart := force, evals := [] } =
      some (.ok (step q x d), { s := x + (lit (2 / 10) : ℝ) • d, forceRestart := force, evals := [lit (2 / 10)] }) := by
    rw [qlineLoop, evalG_bind_ok (r := x + (lit (2 / 10) : ℝ) • d) (s' := x + (lit (2 / 10) : ℝ) • d) rfl, readF_bind]
    rw [if_neg]
    · show some (Res.ok (qMin slope (qCurv (q.energy x) slope (q.energy (x + (lit (2 / 10) : ℝ) • d)) (lit (2 / 10) : ℝ))), _) = _
      rw [hcurv, hmin]
    · show ¬ ((qCurv (q.energy x) slope (q.energy (x + (lit (2 / 10) : ℝ) • d)) (lit (2 / 10) : ℝ) <ᶠ lit 0) = true)
      rw [hcurv]
      simp only [real_lt, real_lit, Rat.cast_zero, decide_eq_true_eq]
      linarith
  have hq : qline { G := (q.ops x0).geo x d, getF := (q.ops x0).getF } { tTrial := lit (2 / 10), tau := tau } (fuel + 1) slope
      { s := x, forceRestart := force, evals := [] } = some (.ok (x + step q x d • d),
      { s := x + step q x d • d, forceRestart := false, evals := [step q x d, lit (2 / 10)] }) := by
    rw [qline, readF_bind]
    refine (FM.bind_ok hloop _).trans ?_
    rw [evalG_bind_ok (r := x + step q x d • d) (s' := x + step q x d • d) rfl, readF_bind, if_neg]
    · rfl
    · show ¬ ((q.energy x <ᶠ q.energy (x + step q x d • d)) = true)
      simpa using hle
  rw [lineSearch, if_neg (by simpa using hn), readF_bind, FM.bind_apply, FM.attempt, hq]
  rfl

/-- the derivative vanishes at the end of a search -/
theorem step_orthogonal (x d : V) (hc : 0 < inner ℝ d (q.A d)) :
    inner ℝ d (q.gradient (x + step q x d • d)) = 0 := by
  rw [gradient_step, inner_add_right, inner_smul_right, step, real_inner_comm d]
  field_simp
  ring

/-- what is left after an iteration: the next point, the slope there, and a direction that is either restarted or
conjugated -/
theorem body {x0 : V} {prm : NlcgParams ℝ} {fuel rank i : ℕ} {v : Vars ℝ V V} {w w1 : NState ℝ V}
    {o : Res (Vars ℝ V V)} (h : BodyRun (q.ops x0) prm (fuel + 1) rank i v (started i v.slope w) o w1)
    (hw : w.s = v.pt) (hc : 0 < inner ℝ v.dir (q.A v.dir)) (hs : v.slope = inner ℝ (q.gradient v.pt) v.dir)
    (hn : v.slope ≤ 0) (hr : prm.restart ≠ 0) :
    ∃ v', o = .ok v' ∧ v'.pt = v.pt + step q v.pt v.dir • v.dir ∧ w1.s = v'.pt ∧ v'.slope = -N q v'.pt ∧
      v'.fr = v'.slope ∧
      ((prm.restart ∣ (i : ℤ) ∧ v'.dir = -q.K (q.gradient v'.pt)) ∨
       (¬ prm.restart ∣ (i : ℤ) ∧ v'.dir = -q.K (q.gradient v'.pt) + (-N q v'.pt / v.fr) • v.dir)) := by
  have json : ∀ {o : Res Unit} {s1 : V} {file'}, JsonRun (q.ops x0) rank i v.slope v.pt (started i v.slope w) o s1 file' →
      o = .ok () ∧ s1 = v.pt := by
    intro o s1 file' h
    have h1 := h.1
    split at h1
    all_goals
      simp only [Quadratic.ops, Prod.mk.injEq] at h1
      exact ⟨h1.1, h1.2.trans hw⟩
  have print : ∀ {s1 : V} {o : Res Unit} {s2 : V}, (q.ops x0).hostPrint s1 = (o, s2) → o = .ok () ∧ s2 = s1 := by
    intro s1 o s2 h
    simp only [Quadratic.ops, Prod.mk.injEq] at h
    exact ⟨h.1.symm, h.2.symm⟩
  cases h with
  | json o s1 file' g1 g2 => rw [(json g1).1] at g2; simp [Res.isOk] at g2
  | hostPrint s1 s2 file' o g1 g2 g3 => rw [(print g2).1] at g3; simp [Res.isOk] at g3
  | search s1 s2 file' o st tr g1 g2 g3 g4 =>
    obtain ⟨-, rfl⟩ := print g2
    obtain ⟨-, rfl⟩ := json g1
    rw [search_exact q v.pt v.dir x0 hc v.slope hs hn] at g3
    simp only [Option.some.injEq, Prod.mk.injEq] at g3
    rw [← g3.1] at g4
    simp [Res.isOk] at g4
  | searched s1 s2 file' r st _ dirs s' force' g1 g2 g3 g4 =>
    obtain ⟨-, rfl⟩ := print g2
    obtain ⟨-, rfl⟩ := json g1
    rw [search_exact q v.pt v.dir x0 hc v.slope hs hn] at g3
    simp only [Option.some.injEq, Prod.mk.injEq, Res.ok.injEq] at g3
    obtain ⟨rfl, rfl⟩ := g3
    have horth := step_orthogonal q v.pt v.dir hc
    have hN : 0 ≤ N q (v.pt + step q v.pt v.dir • v.dir) := by
      by_cases h0 : q.gradient (v.pt + step q v.pt v.dir • v.dir) = 0
      · simp [N, h0]
      · exact (N_pos q h0).le
    cases g4 with
    | refresh o s4 a1 a2 =>
      simp only [Quadratic.ops, Prod.mk.injEq] at a1
      rw [← a1.1] at a2; simp [Res.isOk] at a2
    | ub pt s4 a1 a2 => exact absurd a2 hr
    | steepestFail pt s4 o s5 a1 a2 a3 a4 a5 =>
      simp only [Quadratic.ops, Prod.mk.injEq] at a4
      rw [← a4.1] at a5; simp [Res.isOk] at a5
    | steepest pt s4 sl dir s5 a1 a2 a3 a4 =>
      simp only [Quadratic.ops, Prod.mk.injEq, Res.ok.injEq] at a1 a4
      obtain ⟨rfl, rfl⟩ := a1
      obtain ⟨⟨rfl, rfl⟩, rfl⟩ := a4
      exact ⟨_, rfl, rfl, rfl, rfl, rfl, Or.inl ⟨by simpa using a3, rfl⟩⟩
    | conjugateFail pt s4 o s5 a1 a2 a3 a4 a5 a6 =>
      simp only [Quadratic.ops, Prod.mk.injEq] at a5
      rw [← a5.1] at a6; simp [Res.isOk] at a6
    | conjugate pt s4 fr sl dir s5 a1 a2 a3 a4 a5 a6 =>
      simp only [Quadratic.ops, Prod.mk.injEq, Res.ok.injEq] at a1 a5
      obtain ⟨rfl, rfl⟩ := a1
      obtain ⟨⟨rfl, rfl, rfl⟩, rfl⟩ := a5
      have hsl : cgSlope (-inner ℝ (q.gradient (v.pt + step q v.pt v.dir • v.dir))
          (q.K (q.gradient (v.pt + step q v.pt v.dir • v.dir)))) v.fr
          (inner ℝ v.dir (q.gradient (v.pt + step q v.pt v.dir • v.dir))) =
          -N q (v.pt + step q v.pt v.dir • v.dir) := by
        rw [horth]; simp [cgSlope, N]
      exact ⟨_, rfl, rfl, rfl, hsl, hsl.symm, Or.inr ⟨a3, rfl⟩⟩
    | rejectedFail pt s4 fr c dir s5 o s6 a1 a2 a3 a4 a5 a6 a7 a8 =>
      simp only [Quadratic.ops, Prod.mk.injEq] at a7
      rw [← a7.1] at a8; simp [Res.isOk] at a8
    | rejected pt s4 fr c dir s5 sl dir6 s6 a1 a2 a3 a4 a5 a6 a7 =>
      exfalso
      simp only [Quadratic.ops, Prod.mk.injEq, Res.ok.injEq] at a1 a5
      obtain ⟨rfl, rfl⟩ := a1
      obtain ⟨⟨rfl, rfl, rfl⟩, rfl⟩ := a5
      rw [horth] at a6
      simp only [cgSlope, real_add, real_mul, mul_zero, add_zero, real_lt, real_lit, Rat.cast_zero,
        decide_eq_true_eq] at a6
      change 0 < -N q _ at a6
      linarith

/-- the variables at the start of an iteration, `k` iterations after a restart at `x` -/
structure At (x : V) (n k : ℕ) (v : Vars ℝ V V) (w : NState ℝ V) : Prop where
  pt : v.pt = (cg q x k).1
  state : w.s = v.pt
  slope : v.slope = -N q v.pt
  nonzero : ∀ j < k, q.gradient (cg q x j).1 ≠ 0
  dir : k < n → v.dir = (cg q x k).2 ∧ v.fr = v.slope

theorem small {tol : ℝ} {v : Vars ℝ V V} (htol : 0 < tol) (hs : v.slope = -N q v.pt)
    (h : (Arith.abs v.slope <ᶠ tol) = false) : q.gradient v.pt ≠ 0 := by
  intro h0
  rw [hs] at h
  simp [N, h0] at h
  linarith

theorem At.search {x : V} {n k : ℕ} {v : Vars ℝ V V} {w : NState ℝ V} (h : At q x n k v w) (hk : k < n)
    (hg : q.gradient v.pt ≠ 0) :
    0 < inner ℝ v.dir (q.A v.dir) ∧ v.slope = inner ℝ (q.gradient v.pt) v.dir ∧ v.slope ≤ 0 := by
  have hi := inv_all q k h.nonzero
  have hd := (h.dir hk).1
  refine ⟨?_, ?_, ?_⟩
  · rw [hd]; exact hi.curv_pos q (h.pt ▸ hg)
  · rw [h.slope, hd, h.pt, hi.own]
  · rw [h.slope]; linarith [N_pos q hg]

theorem At.next {x x0 : V} {n k i : ℕ} {prm : NlcgParams ℝ} {fuel rank : ℕ} {v : Vars ℝ V V} {w w1 : NState ℝ V}
    {o : Res (Vars ℝ V V)} (h : At q x n k v w) (hk : k < n) (hg : q.gradient v.pt ≠ 0)
    (hr : prm.restart ≠ 0) (hi : k + 1 < n → ¬ prm.restart ∣ (i : ℤ))
    (hb : BodyRun (q.ops x0) prm (fuel + 1) rank i v (started i v.slope w) o w1) :
    ∃ v', o = .ok v' ∧ At q x n (k + 1) v' w1 := by
  obtain ⟨a1, a2, a3⟩ := h.search q hk hg
  obtain ⟨v', rfl, b2, b3, b4, b5, b6⟩ := body q hb h.state a1 a2 a3 hr
  have hd := (h.dir hk).1
  have hpt : v'.pt = (cg q x (k + 1)).1 := by rw [b2, cg_fst, hd, h.pt]
  refine ⟨v', rfl, hpt, b3, b4, ?_, ?_⟩
  · intro j hj
    rcases Nat.lt_succ_iff_lt_or_eq.1 hj with hj | rfl
    · exact h.nonzero j hj
    · exact h.pt ▸ hg
  · intro hk1
    refine ⟨?_, b5⟩
    rcases b6 with ⟨c1, -⟩ | ⟨-, c2⟩
    · exact absurd c1 (hi hk1)
    · rw [c2, cg_snd, ← hpt, hd, (h.dir hk).2, h.slope, h.pt, neg_div_neg_eq]

/-- a run that is `k` steps after a restart is done after at most `n` steps -/
theorem loop [FiniteDimensional ℝ V] {x x0 : V} {prm : NlcgParams ℝ} {fuel rank : ℕ} (htol : 0 < prm.tol)
    (hr : prm.restart ≠ 0) (hrn : (Module.finrank ℝ V : ℤ) ≤ prm.restart)
    {m i : ℕ} {v : Vars ℝ V V} {w : NState ℝ V} {o : Res (Info ℝ)} {w' : NState ℝ V}
    (h : LoopRun (q.ops x0) prm (fuel + 1) rank m i v w o w') :
    ∀ k, i = k + 1 → k ≤ Module.finrank ℝ V → At q x (Module.finrank ℝ V) k v w →
      Module.finrank ℝ V < k + m →
      ∃ vals, o = .ok { vals := some vals, converged := true } ∧ vals.iter ≤ Module.finrank ℝ V + 1 ∧
        vals.F = q.energy w'.s ∧ N q w'.s < prm.tol := by
  have done : ∀ {v : Vars ℝ V V} {w : NState ℝ V} {k i : ℕ}, At q x (Module.finrank ℝ V) k v w →
      (Arith.abs v.slope <ᶠ prm.tol) = true → N q w.s < prm.tol := by
    intro v w k i ha h
    rw [ha.slope] at h
    simp only [real_abs, real_lt, abs_neg, decide_eq_true_eq] at h
    rw [ha.state]
    exact (le_abs_self _).trans_lt h
  have json : ∀ {i : ℕ} {slope : ℝ} {pt : V} {w : NState ℝ V} {o : Res Unit} {s1 : V} {file'},
      JsonRun (q.ops x0) rank i slope pt w o s1 file' → o = .ok () ∧ s1 = w.s := by
    intro i slope pt w o s1 file' h
    have h1 := h.1
    split at h1
    all_goals
      simp only [Quadratic.ops, Prod.mk.injEq] at h1
      exact ⟨h1.1, h1.2⟩
  have hlt : ∀ {v : Vars ℝ V V} {w : NState ℝ V} {k : ℕ}, k ≤ Module.finrank ℝ V →
      At q x (Module.finrank ℝ V) k v w → q.gradient v.pt ≠ 0 → k < Module.finrank ℝ V := by
    intro v w k hk ha hg
    obtain ⟨l, hl, h0⟩ := gradient_vanishes q x
    by_contra hcon
    have hkn : k = Module.finrank ℝ V := by omega
    rcases lt_or_eq_of_le hl with hl | hl
    · exact ha.nonzero l (by omega) h0
    · rw [hl, ← hkn, ← ha.pt] at h0
      exact hg h0
  induction h with
  | limit i v w => intro k _ hk _ hm; omega
  | success m i v w s1 s2 file' h1 h2 h3 =>
    intro k hi hk ha _
    obtain ⟨-, rfl⟩ := json h2
    simp only [Quadratic.ops, Prod.mk.injEq] at h3
    obtain ⟨-, rfl⟩ := h3
    have hN := done (i := i) ha h1
    exact ⟨_, rfl, by show i ≤ _; omega, rfl, hN⟩
  | successJson m i v w o s1 file' h1 h2 h3 => rw [(json h2).1] at h3; simp [Res.isOk] at h3
  | successPrint m i v w s1 file' o s2 h1 h2 h3 h4 =>
    simp only [Quadratic.ops, Prod.mk.injEq] at h3
    rw [← h3.1] at h4; simp [Res.isOk] at h4
  | step m i v w v' w1 o w' h1 h2 h3 ih =>
    intro k hi hk ha hm
    have hg := small q htol ha.slope h1
    have hk' := hlt hk ha hg
    obtain ⟨v'', e1, e2⟩ := ha.next q hk' hg hr (fun hk1 hd => by
      have := Int.le_of_dvd (by omega) hd
      omega) h2
    obtain rfl := Res.ok.inj e1
    exact ih (k + 1) (by omega) (by omega) e2 (by omega)
  | caught m i v w e w1 h1 h2 h3 =>
    intro k hi hk ha hm
    have hg := small q htol ha.slope h1
    obtain ⟨v'', e1, -⟩ := ha.next q (hlt hk ha hg) hg hr (fun hk1 hd => by
      have := Int.le_of_dvd (by omega) hd
      omega) h2
    simp at e1
  | uncaught m i v w o w1 h1 h2 h3 h4 =>
    intro k hi hk ha hm
    have hg := small q htol ha.slope h1
    obtain ⟨v'', e1, -⟩ := ha.next q (hlt hk ha hg) hg hr (fun hk1 hd => by
      have := Int.le_of_dvd (by omega) hd
      omega) h2
    rw [e1] at h3; simp [Res.isOk] at h3

theorem dir_ok {x d : V} (h : -N q x = inner ℝ (q.gradient x) d) (hg : q.gradient x ≠ 0) :
    0 < inner ℝ d (q.A d) := by
  apply q.posA
  rintro rfl
  rw [inner_zero_right] at h
  linarith [N_pos q hg]

/-- what every iteration starts with -/
structure Ready (v : Vars ℝ V V) (w : NState ℝ V) : Prop where
  state : w.s = v.pt
  slope : v.slope = -N q v.pt
  dir : v.slope = inner ℝ (q.gradient v.pt) v.dir

theorem Ready.nonpos {v : Vars ℝ V V} {w : NState ℝ V} (h : Ready q v w) : v.slope ≤ 0 := by
  rw [h.slope]
  by_cases h0 : q.gradient v.pt = 0
  · simp [N, h0]
  · linarith [N_pos q h0]

theorem Ready.next {x0 : V} {prm : NlcgParams ℝ} {fuel rank i : ℕ} {v : Vars ℝ V V} {w w1 : NState ℝ V}
    {o : Res (Vars ℝ V V)} (hr : prm.restart ≠ 0) (h : Ready q v w) (hg : q.gradient v.pt ≠ 0)
    (hb : BodyRun (q.ops x0) prm (fuel + 1) rank i v (started i v.slope w) o w1) :
    ∃ v', o = .ok v' ∧ Ready q v' w1 := by
  have hc := dir_ok q (h.slope ▸ h.dir) hg
  obtain ⟨v', rfl, b2, b3, b4, b5, b6⟩ := body q hb h.state hc h.dir h.nonpos hr
  refine ⟨v', rfl, b3, b4, ?_⟩
  rw [b4]
  rcases b6 with ⟨-, c⟩ | ⟨-, c⟩
  · rw [c, inner_neg_right, N]
  · have := step_orthogonal q v.pt v.dir hc
    rw [← b2, real_inner_comm] at this
    rw [c, inner_add_right, inner_neg_right, inner_smul_right, this, N]
    simp

/-- every run ends -/
theorem ends {x0 : V} {prm : NlcgParams ℝ} (fuel rank : ℕ) (htol : 0 < prm.tol) (hr : prm.restart ≠ 0)
    (w : NState ℝ V) : nlcg (q.ops x0) prm (fuel + 1) rank w ≠ none := by
  refine nlcg_ne_none _ prm (fuel + 1) rank (Ready q) w ?_ ?_ ?_
  · intro s1 pt s2 slope dir s3 h1 h2 h3
    simp only [Quadratic.ops, Prod.mk.injEq, Res.ok.injEq] at h1 h2 h3
    obtain ⟨rfl, rfl⟩ := h2
    obtain ⟨⟨rfl, rfl⟩, rfl⟩ := h3
    exact ⟨rfl, rfl, by simp [inner_neg_right]⟩
  · intro i v w v' w1 h ht hb
    obtain ⟨v'', e1, e2⟩ := h.next q hr (small q htol h.slope ht) hb
    obtain rfl := Res.ok.inj e1
    exact e2
  · intro i v w s1 s2 file' h ht hj hp
    have hc := dir_ok q (h.slope ▸ h.dir) (small q htol h.slope ht)
    have hs : s2 = v.pt := by
      simp only [Quadratic.ops, Prod.mk.injEq] at hp
      have h1 := hj.1
      rw [← hp.2, ← h.state]
      split at h1
      all_goals
        simp only [Quadratic.ops, Prod.mk.injEq] at h1
        exact h1.2
    rw [hs, search_exact q v.pt v.dir x0 hc v.slope h.dir h.nonpos]
    simp

/-- the whole loop: after iteration 0 the direction is restarted -/
theorem first [FiniteDimensional ℝ V] {x0 : V} {prm : NlcgParams ℝ} {fuel rank : ℕ} (htol : 0 < prm.tol)
    (hr : prm.restart ≠ 0) (hrn : (Module.finrank ℝ V : ℤ) ≤ prm.restart)
    (hmax : (Module.finrank ℝ V : ℤ) + 2 ≤ prm.maxiter) {o : Res (Info ℝ)} {w' : NState ℝ V}
    (h : LoopRun (q.ops x0) prm (fuel + 1) rank prm.maxiter.toNat 0
      { pt := x0, dir := -q.K (q.gradient x0), slope := -N q x0, fr := -N q x0 }
      { s := x0, file := [], info := { vals := none, converged := false }, force := false, trace := [] } o w') :
    ∃ vals, o = .ok { vals := some vals, converged := true } ∧ vals.iter ≤ Module.finrank ℝ V + 1 ∧
      vals.F = q.energy w'.s ∧ N q w'.s < prm.tol := by
  have hready : Ready q (V := V) { pt := x0, dir := -q.K (q.gradient x0), slope := -N q x0, fr := -N q x0 }
      { s := x0, file := [], info := { vals := none, converged := false }, force := false, trace := [] } :=
    ⟨rfl, rfl, by simp [inner_neg_right, N]⟩
  generalize hv : ({ pt := x0, dir := -q.K (q.gradient x0), slope := -N q x0, fr := -N q x0 } : Vars ℝ V V) = v at h hready
  generalize hw : ({ s := x0, file := [], info := { vals := none, converged := false }, force := false, trace := [] } :
    NState ℝ V) = w at h hready
  generalize hm : prm.maxiter.toNat = m at h
  generalize hi : 0 = i at h
  cases h with
  | limit => omega
  | success m i v w s1 s2 file' h1 h2 h3 =>
    simp only [Quadratic.ops, Prod.mk.injEq] at h3
    have hs : s1 = w.s := by
      have h4 := h2.1
      split at h4
      all_goals
        simp only [Quadratic.ops, Prod.mk.injEq] at h4
        exact h4.2
    refine ⟨_, rfl, by show i ≤ _; omega, ?_, ?_⟩
    · show q.energy w.s = q.energy s2
      rw [← h3.2, hs]
    · show N q s2 < _
      rw [← h3.2, hs, hready.state]
      rw [hready.slope] at h1
      simp only [real_abs, real_lt, abs_neg, decide_eq_true_eq] at h1
      exact (le_abs_self _).trans_lt h1
  | successJson m i v w o s1 file' h1 h2 h3 =>
    have h4 := h2.1
    split at h4
    all_goals
      simp only [Quadratic.ops, Prod.mk.injEq] at h4
      rw [h4.1] at h3; simp [Res.isOk] at h3
  | successPrint m i v w s1 file' o s2 h1 h2 h3 h4 =>
    simp only [Quadratic.ops, Prod.mk.injEq] at h3
    rw [← h3.1] at h4; simp [Res.isOk] at h4
  | step m i v w v' w1 o w' h1 h2 h3 =>
    have hg := small q htol hready.slope h1
    have hc := dir_ok q (hready.slope ▸ hready.dir) hg
    obtain ⟨v'', e1, b2, b3, b4, b5, b6⟩ := body q h2 hready.state hc hready.dir hready.nonpos hr
    obtain rfl := Res.ok.inj e1
    have hd : v'.dir = -q.K (q.gradient v'.pt) := by
      rcases b6 with ⟨-, c⟩ | ⟨c, -⟩
      · exact c
      · subst hi; simp at c
    refine loop q (x := v'.pt) htol hr hrn h3 0 (by omega) (by omega) ⟨rfl, b3, b4, by simp, fun _ => ⟨hd, b5⟩⟩ ?_
    omega
  | caught m i v w e w1 h1 h2 h3 =>
    obtain ⟨v'', e1, -⟩ := hready.next q hr (small q htol hready.slope h1) h2
    simp at e1
  | uncaught m i v w o w1 h1 h2 h3 h4 =>
    obtain ⟨v'', e1, -⟩ := hready.next q hr (small q htol hready.slope h1) h2
    rw [e1] at h3; simp [Res.isOk] at h3

end Quad
end Nlcg
