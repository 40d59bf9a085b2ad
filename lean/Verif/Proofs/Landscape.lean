import Verif.Proofs.DriverTotal
import Verif.Spec.Landscape

/-! Runs on smooth energies. -/

namespace Nlcg
open Spec Arith
variable {V : Type} [NormedAddCommGroup V] [InnerProductSpace ℝ V]

namespace Land
variable (q : Landscape V)

/-- squared norm of the gradient -/
noncomputable def N (x : V) : ℝ := inner ℝ (q.gradient x) (q.K (q.gradient x))

theorem N_nonneg (x : V) : 0 ≤ N q x := by
  by_cases h : q.gradient x = 0
  · simp [N, h]
  · exact (q.posK _ h).le

/-- the curvature the quadratic search sees -/
noncomputable def seen (x d : V) (slope : ℝ) : ℝ :=
  (q.energy (x + (1 / 5 : ℝ) • d) - slope * (1 / 5) - q.energy x) / (1 / 5 * (1 / 5))

/-- where the quadratic search goes -/
noncomputable def aim (x d : V) (slope : ℝ) : ℝ := -slope / (2 * seen q x d slope)

theorem search_run (x d x0 : V) (slope : ℝ) (hn : slope ≤ 0) (hc : 0 < seen q x d slope)
    (hle : q.energy (x + aim q x d slope • d) ≤ q.energy x) (tau : ℝ) (fuel : ℕ) (force : Bool) :
    lineSearch { G := (q.ops x0).geo x d, getF := (q.ops x0).getF } { tTrial := lit (2 / 10), tau := tau } (fuel + 1) slope
      { s := x, forceRestart := force, evals := [] } =
    some (.ok (x + aim q x d slope • d),
      { s := x + aim q x d slope • d, forceRestart := false, evals := [aim q x d slope, lit (2 / 10)] }) := by
  have ht : (lit (2 / 10) : ℝ) = 1 / 5 := by norm_num [Arith.lit]
  have hcurv : qCurv (q.energy x) slope (q.energy (x + (lit (2 / 10) : ℝ) • d)) (lit (2 / 10) : ℝ) = seen q x d slope := by
    rw [ht]
    simp only [qCurv, real_div, real_sub, real_mul, seen]
  have hmin : qMin slope (seen q x d slope) = aim q x d slope := by
    simp only [qMin, real_div, real_neg, real_mul, real_lit, aim]
    push_cast
    rfl
  have hloop : qlineLoop { G := (q.ops x0).geo x d, getF := (q.ops x0).getF } (q.energy x) slope (fuel + 1) (lit (2 / 10))
      { s := x, forceRestart := force, evals := [] } =
      some (.ok (aim q x d slope), { s := x + (lit (2 / 10) : ℝ) • d, forceRestart := force, evals := [lit (2 / 10)] }) := by
    rw [qlineLoop, evalG_bind_ok (r := x + (lit (2 / 10) : ℝ) • d) (s' := x + (lit (2 / 10) : ℝ) • d) rfl, readF_bind]
    rw [if_neg]
    · show some (Res.ok (qMin slope (qCurv (q.energy x) slope (q.energy (x + (lit (2 / 10) : ℝ) • d)) (lit (2 / 10) : ℝ))), _) = _
      rw [hcurv, hmin]
    · show ¬ ((qCurv (q.energy x) slope (q.energy (x + (lit (2 / 10) : ℝ) • d)) (lit (2 / 10) : ℝ) <ᶠ lit 0) = true)
      rw [hcurv]
      simp only [real_lt, real_lit, Rat.cast_zero, decide_eq_true_eq]
      linarith
  have hq : qline { G := (q.ops x0).geo x d, getF := (q.ops x0).getF } { tTrial := lit (2 / 10), tau := tau } (fuel + 1) slope
      { s := x, forceRestart := force, evals := [] } = some (.ok (x + aim q x d slope • d),
      { s := x + aim q x d slope • d, forceRestart := false, evals := [aim q x d slope, lit (2 / 10)] }) := by
    rw [qline, readF_bind]
    refine (FM.bind_ok hloop _).trans ?_
    rw [evalG_bind_ok (r := x + aim q x d slope • d) (s' := x + aim q x d slope • d) rfl, readF_bind, if_neg]
    · rfl
    · show ¬ ((q.energy x <ᶠ q.energy (x + aim q x d slope • d)) = true)
      simpa using hle
  rw [lineSearch, if_neg (by simpa using hn), readF_bind, FM.bind_apply, FM.attempt, hq]
  rfl

/-- the variables of a run: the slope is the derivative along the direction and not positive -/
structure Ok (v : Vars ℝ V V) (w : NState ℝ V) : Prop where
  state : w.s = v.pt
  slope : v.slope = inner ℝ (q.gradient v.pt) v.dir
  down : v.slope ≤ 0

/-- the direction is the (preconditioned) negative gradient -/
def Steep (v : Vars ℝ V V) : Prop := v.slope = -N q v.pt ∧ v.dir = -q.K (q.gradient v.pt)

theorem Steep.ok {v : Vars ℝ V V} {w : NState ℝ V} (h : Steep q v) (hw : w.s = v.pt) : Ok q v w := by
  refine ⟨hw, ?_, ?_⟩
  · rw [h.1, h.2, inner_neg_right, N]
  · rw [h.1]; linarith [N_nonneg q v.pt]

theorem body {x0 : V} {prm : NlcgParams ℝ} {fuel rank i : ℕ} {v : Vars ℝ V V} {w w1 : NState ℝ V}
    {o : Res (Vars ℝ V V)} (h : BodyRun (q.ops x0) prm (fuel + 1) rank i v (started i v.slope w) o w1)
    (hv : Ok q v w) (hc : 0 < seen q v.pt v.dir v.slope)
    (hle : q.energy (v.pt + aim q v.pt v.dir v.slope • v.dir) ≤ q.energy v.pt) (hr : prm.restart ≠ 0) :
    ∃ v', o = .ok v' ∧ v'.pt = v.pt + aim q v.pt v.dir v.slope • v.dir ∧ Ok q v' w1 ∧
      (prm.restart ∣ (i : ℤ) → Steep q v' ∧ v'.fr = v'.slope) ∧
      (¬ prm.restart ∣ (i : ℤ) →
        -N q v'.pt + -N q v'.pt / v.fr * inner ℝ v.dir (q.gradient v'.pt) = 0 → v'.slope = 0) := by
  have json : ∀ {o : Res Unit} {s1 : V} {file'}, JsonRun (q.ops x0) rank i v.slope v.pt (started i v.slope w) o s1 file' →
      o = .ok () ∧ s1 = v.pt := by
    intro o s1 file' h
    have h1 := h.1
    split at h1
    all_goals
      simp only [Landscape.ops, Prod.mk.injEq] at h1
      exact ⟨h1.1, h1.2.trans hv.state⟩
  have print : ∀ {s1 : V} {o : Res Unit} {s2 : V}, (q.ops x0).hostPrint s1 = (o, s2) → o = .ok () ∧ s2 = s1 := by
    intro s1 o s2 h
    simp only [Landscape.ops, Prod.mk.injEq] at h
    exact ⟨h.1.symm, h.2.symm⟩
  cases h with
  | json o s1 file' g1 g2 => rw [(json g1).1] at g2; simp [Res.isOk] at g2
  | hostPrint s1 s2 file' o g1 g2 g3 => rw [(print g2).1] at g3; simp [Res.isOk] at g3
  | search s1 s2 file' o st tr g1 g2 g3 g4 =>
    obtain ⟨-, rfl⟩ := print g2
    obtain ⟨-, rfl⟩ := json g1
    rw [search_run q v.pt v.dir x0 v.slope hv.down hc hle] at g3
    simp only [Option.some.injEq, Prod.mk.injEq] at g3
    rw [← g3.1] at g4
    simp [Res.isOk] at g4
  | searched s1 s2 file' r st _ dirs s' force' g1 g2 g3 g4 =>
    obtain ⟨-, rfl⟩ := print g2
    obtain ⟨-, rfl⟩ := json g1
    rw [search_run q v.pt v.dir x0 v.slope hv.down hc hle] at g3
    simp only [Option.some.injEq, Prod.mk.injEq, Res.ok.injEq] at g3
    obtain ⟨rfl, rfl⟩ := g3
    cases g4 with
    | refresh o s4 a1 a2 =>
      simp only [Landscape.ops, Prod.mk.injEq] at a1
      rw [← a1.1] at a2; simp [Res.isOk] at a2
    | ub pt s4 a1 a2 => exact absurd a2 hr
    | steepestFail pt s4 o s5 a1 a2 a3 a4 a5 =>
      simp only [Landscape.ops, Prod.mk.injEq] at a4
      rw [← a4.1] at a5; simp [Res.isOk] at a5
    | steepest pt s4 sl dir s5 a1 a2 a3 a4 =>
      simp only [Landscape.ops, Prod.mk.injEq, Res.ok.injEq] at a1 a4
      obtain ⟨rfl, rfl⟩ := a1
      obtain ⟨⟨rfl, rfl⟩, rfl⟩ := a4
      refine ⟨_, rfl, rfl, Steep.ok q ⟨rfl, rfl⟩ rfl, fun _ => ⟨⟨rfl, rfl⟩, rfl⟩, fun hn => ?_⟩
      simp [hn] at a3
    | conjugateFail pt s4 o s5 a1 a2 a3 a4 a5 a6 =>
      simp only [Landscape.ops, Prod.mk.injEq] at a5
      rw [← a5.1] at a6; simp [Res.isOk] at a6
    | conjugate pt s4 fr sl dir s5 a1 a2 a3 a4 a5 a6 =>
      simp only [Landscape.ops, Prod.mk.injEq, Res.ok.injEq] at a1 a5
      obtain ⟨rfl, rfl⟩ := a1
      obtain ⟨⟨rfl, rfl, rfl⟩, rfl⟩ := a5
      refine ⟨_, rfl, rfl, ⟨rfl, ?_, ?_⟩, fun h => absurd h a3, fun _ h0 => ?_⟩
      · simp only [cgSlope, real_add, real_mul, real_div, inner_add_right, inner_neg_right, inner_smul_right]
        rw [real_inner_comm (q.gradient _) v.dir]
      · simpa [cgSlope] using a6
      · simpa [cgSlope, N] using h0
    | rejectedFail pt s4 fr c dir s5 o s6 a1 a2 a3 a4 a5 a6 a7 a8 =>
      simp only [Landscape.ops, Prod.mk.injEq] at a7
      rw [← a7.1] at a8; simp [Res.isOk] at a8
    | rejected pt s4 fr c dir s5 sl dir6 s6 a1 a2 a3 a4 a5 a6 a7 =>
      simp only [Landscape.ops, Prod.mk.injEq, Res.ok.injEq] at a1 a5 a7
      obtain ⟨rfl, rfl⟩ := a1
      obtain ⟨⟨rfl, rfl, rfl⟩, rfl⟩ := a5
      obtain ⟨⟨rfl, rfl⟩, rfl⟩ := a7
      refine ⟨_, rfl, rfl, Steep.ok q ⟨rfl, rfl⟩ rfl, fun h => absurd h a3, fun _ h0 => ?_⟩
      exfalso
      simp only [cgSlope, real_add, real_mul, real_div, real_lt, real_lit, Rat.cast_zero, decide_eq_true_eq] at a6
      change 0 < -N q _ + -N q _ / v.fr * _ at a6
      linarith

end Land
end Nlcg
