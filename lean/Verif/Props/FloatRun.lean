import Verif.Proofs.FloatRun
import Verif.Props.LineSearch
import Verif.Props.Driver

/-!
# C127: every run ends in floating point, whatever the host answers

`Stored tau`: the parameter is a number of the format, an infinity or NaN. `NoStall r u`: the rounding is that of
doubles to nearest (`double_noStall`).
-/

namespace Nlcg
open Spec Arith

variable {r : Rounding} {u : ℝ}

/-- **C127, backtracking.** The number of steps that backtracking tries is bounded by a number that depends on `tau`
and the number format only. -/
theorem C127_backtracking (hr : NoStall r u) (tau : F64 r) (ht : Stored tau) :
    ∃ N, ∀ fuel ≥ N, ∀ (σ ρ : Type) (env : LSEnv (F64 r) σ ρ) (F0 : F64 r) (st : LSState (F64 r) σ),
      btSearch env { tTrial := lit (2 / 10), tau := tau } fuel F0 st ≠ none := by
  by_cases h : ((lit 1 : F64 r) ≤ᶠ tau) = true
  · refine ⟨0, fun fuel _ σ ρ env F0 st => ?_⟩
    rw [C24_tau_refused env _ fuel F0 st h]
    simp
  · obtain ⟨m, hm⟩ := hr.small_step tau ht (by simpa using h)
    exact ⟨m, fun fuel hf σ ρ env F0 st => btSearch_ne_none env _ F0 m fuel hf hm st⟩

/-- **C127, quadratic search.** The number of steps that the quadratic search tries is bounded by a number that depends
on the number format only. -/
theorem C127_quadratic (hr : NoStall r u) :
    ∃ N, ∀ fuel ≥ N, ∀ (σ ρ : Type) (env : LSEnv (F64 r) σ ρ) (tau slope : F64 r) (st : LSState (F64 r) σ),
      qline env { tTrial := lit (2 / 10), tau := tau } fuel slope st ≠ none := by
  obtain ⟨K, hK⟩ := hr.large_step
  exact ⟨K + 1, fun fuel hf σ ρ env tau slope st =>
    C25_terminates_by_overflow env _ slope K (fun x => by rw [hK]; exact hr.curvature x) st fuel (by omega)⟩

/-- **C127.** For every number format and every `tau` there is a bound on the number of steps of a search with which
every run ends: for every host, whatever it answers and however it changes its mind, NaN and infinities included, and
for all values of the other parameters. -/
theorem C127_ends (hr : NoStall r u) (tau : F64 r) (ht : Stored tau) :
    ∃ N, ∀ fuel ≥ N, ∀ (σ ρ δ : Type) (ops : Ops (F64 r) σ ρ δ) (prm : NlcgParams (F64 r)) (rank : ℕ)
      (w : NState (F64 r) σ), prm.tau = tau → nlcg ops prm fuel rank w ≠ none := by
  obtain ⟨N, hN⟩ := C127_backtracking hr tau ht
  obtain ⟨K, hK⟩ := C127_quadratic hr
  refine ⟨max N K, fun fuel hf σ ρ δ ops prm rank w hp => C30_run_ends ops prm fuel rank w fun pt dir slope st => ?_⟩
  rw [hp]
  exact lineSearch_ne_none _ _ _ _ _ (hK fuel (le_trans (le_max_right _ _) hf) _ _ _ _ _ _)
    fun st' => hN fuel (le_trans (le_max_left _ _) hf) _ _ _ _ st'

/-- **C127, doubles.** -/
theorem C127_double (tau : F64 double) (ht : Stored tau) :
    ∃ N, ∀ fuel ≥ N, ∀ (σ ρ δ : Type) (ops : Ops (F64 double) σ ρ δ) (prm : NlcgParams (F64 double)) (rank : ℕ)
      (w : NState (F64 double) σ), prm.tau = tau → nlcg ops prm fuel rank w ≠ none :=
  C127_ends double_noStall tau ht

/-- the hypotheses are met by doubles, with `tau` one half or NaN -/
example : NoStall double (1 / 2 ^ 53) ∧ Stored (.num (1 / 2) : F64 double) ∧ Stored (.nan : F64 double) :=
  ⟨double_noStall, doubleRnd_half, trivial⟩

/-! ## Upward rounding -/

/-- the largest double below 1 -/
noncomputable def lastTau : F64 upwardDouble := .num (1 - 1 / 2 ^ 53)

/-- 0.2, rounded upward -/
noncomputable def fifth : ℝ := 7205759403792794 * 2 ^ ((-3 : ℤ) - 52)

theorem upward_fifth : upward (1 / 5) = fifth := by
  have := upward_ceil (x := 1 / 5) (e := -3) (k := 7205759403792794) (by norm_num [abs_of_pos])
    (by norm_num [abs_of_pos]) (by norm_num) (by norm_num)
  rw [this, fifth]
  norm_num

/-- multiplied by `tau` and rounded, the step is what it was -/
theorem upward_stall : upward (fifth * (1 - 1 / 2 ^ 53)) = fifth := by
  have h0 : |fifth * (1 - 1 / 2 ^ 53)| = fifth * (1 - 1 / 2 ^ 53) := abs_of_pos (by norm_num [fifth])
  have := upward_ceil (x := fifth * (1 - 1 / 2 ^ 53)) (e := -3) (k := 7205759403792794)
    (by rw [h0]; norm_num [fifth]) (by rw [h0]; norm_num [fifth]) (by norm_num [fifth]) (by norm_num [fifth])
  rw [this, fifth]
  norm_num

theorem upward_one : upward 1 = 1 := by
  have := upward_ceil (x := 1) (e := 0) (k := 2 ^ 52) (by norm_num) (by norm_num) (by norm_num) (by norm_num)
  rw [this]
  norm_num

theorem upward_tau : upward (1 - 1 / 2 ^ 53) = 1 - 1 / 2 ^ 53 := by
  have h0 : |(1 : ℝ) - 1 / 2 ^ 53| = 1 - 1 / 2 ^ 53 := abs_of_pos (by norm_num)
  have := upward_ceil (x := 1 - 1 / 2 ^ 53) (e := -1) (k := 2 ^ 53 - 1) (by rw [h0]; norm_num) (by rw [h0]; norm_num)
    (by norm_num) (by norm_num)
  rw [this]
  norm_num

theorem upward_limit : upward (1 / 10 ^ 8) = 6044629098073146 * 2 ^ ((-27 : ℤ) - 52) := by
  have := upward_ceil (x := 1 / 10 ^ 8) (e := -27) (k := 6044629098073146) (by norm_num [abs_of_pos])
    (by norm_num [abs_of_pos]) (by norm_num) (by norm_num)
  rw [this]
  norm_num

theorem upward_small {q : ℚ} (h : |(q : ℝ)| < 10) : (lit q : F64 upwardDouble) = .num (upward q) :=
  F64.norm_small (r := upwardDouble) (lt_of_lt_of_le h double_noStall.huge)

/-- the energy is infinite at every trial point; the energy at the start is 0 -/
noncomputable def wallOps : Ops (F64 upwardDouble) (F64 upwardDouble) Unit Unit where
  construct s := (.ok (), s)
  setup _ := (.ok (), .num 0)
  restarted _ s := (.ok (.num (-1), ()), s)
  conjugated _ _ _ s := (.ok (.num (-1), .num (-1), ()), s)
  geo _ _ _ _ := (.ok (), .inf false)
  refresh _ s := (.ok (), s)
  gather _ s := (.ok (), s)
  hostPrint s := (.ok (), s)
  getF s := s
  getS _ := .num 0

/-- parameters of the example -/
noncomputable def wallPrm : NlcgParams (F64 upwardDouble) :=
  { maxiter := 100, tol := .num (1 / 10 ^ 6), tau := lastTau, restart := 10 }

theorem wall_btLoop (fuel : ℕ) (st : LSState (F64 upwardDouble) (F64 upwardDouble)) :
    btLoop { G := wallOps.geo () (), getF := wallOps.getF } lastTau (.num 0) fuel (.num fifth) st = none := by
  have c1 : ((lit (1 / 10 ^ 8) : F64 upwardDouble) <ᶠ .num fifth) = true := by
    rw [upward_small (by norm_num)]
    push_cast
    rw [upward_limit, F64.lt_num, decide_eq_true]
    norm_num [fifth]
  have c2 : ((F64.inf false : F64 upwardDouble) <ᶠ .num 0) = false := rfl
  have c3 : (F64.num fifth *ᶠ lastTau : F64 upwardDouble) = .num fifth := by
    rw [lastTau, F64.num_mul, F64.norm_small]
    · show F64.num (upward _) = _
      rw [upward_stall]
    · refine lt_of_lt_of_le ?_ double_noStall.huge
      rw [abs_of_pos (by norm_num [fifth])]
      norm_num [fifth]
  induction fuel generalizing st with
  | zero => rw [btLoop, if_pos c1]; rfl
  | succ n ih =>
    have b1 : ∀ t s, wallOps.geo () () t s = (.ok (), .inf false) := fun _ _ => rfl
    have b2 : ∀ s, wallOps.getF s = s := fun _ => rfl
    rw [btLoop, if_pos c1]
    simp only [evalG, readF, FM.bind_apply, b1, b2, c2, Bool.false_eq_true, if_false, c3]
    exact ih _

theorem wall_search (fuel : ℕ) : lineSearch { G := wallOps.geo () (), getF := wallOps.getF }
    { tTrial := lit (2 / 10), tau := lastTau } fuel (.num (-1))
    { s := .num 0, forceRestart := false, evals := [] } = none := by
  have a1 : (lit (2 / 10) : F64 upwardDouble) = .num fifth := by
    rw [upward_small (by norm_num), show ((2 / 10 : ℚ) : ℝ) = 1 / 5 by norm_num, upward_fifth]
  have a2 : (lit 0 : F64 upwardDouble) = .num 0 := by
    rw [upward_small (by norm_num), Rat.cast_zero]
    simp [upward]
  have a3 : (lit 1 : F64 upwardDouble) = .num 1 := by
    rw [upward_small (by norm_num), Rat.cast_one, upward_one]
  have b1 : ∀ t s, wallOps.geo () () t s = (.ok (), .inf false) := fun _ _ => rfl
  have b2 : ∀ s, wallOps.getF s = s := fun _ => rfl
  have c0 : ((lit 0 : F64 upwardDouble) <ᶠ .num (-1)) = false := by
    rw [a2, F64.lt_num, decide_eq_false (by norm_num)]
  have c1 : qCurv (.num 0 : F64 upwardDouble) (.num (-1)) (.inf false) (.num fifth) = .inf false := by
    have e1 : ∃ b, (F64.num fifth *ᶠ F64.num fifth : F64 upwardDouble) = .num b ∧ 0 ≤ b := by
      refine ⟨_, F64.norm_small ?_, ?_⟩
      · refine lt_of_lt_of_le ?_ double_noStall.huge
        rw [abs_of_pos (by norm_num [fifth])]
        norm_num [fifth]
      · show 0 ≤ upward _
        refine mul_nonneg ?_ (by positivity)
        exact_mod_cast Int.ceil_nonneg (div_nonneg (mul_self_nonneg _) (by positivity))
    have e2 : ∃ b, (F64.num (-1) *ᶠ F64.num fifth : F64 upwardDouble) = .num b := by
      refine ⟨_, F64.norm_small ?_⟩
      refine lt_of_lt_of_le ?_ double_noStall.huge
      rw [abs_mul, abs_of_pos (show 0 < fifth by norm_num [fifth])]
      norm_num [fifth]
    obtain ⟨b, e1, hb⟩ := e1
    obtain ⟨b', e2⟩ := e2
    rw [qCurv, e1, e2]
    show F64.inf (false != decide (b < 0)) = F64.inf false
    rw [decide_eq_false hb.not_gt]
    rfl
  have c2 : ((F64.inf false : F64 upwardDouble) <ᶠ .num 0) = false := rfl
  have c3 : ((F64.num 0 : F64 upwardDouble) <ᶠ .inf false) = true := rfl
  have c4 : ((F64.num 1 : F64 upwardDouble) ≤ᶠ lastTau) = false := by
    rw [lastTau, F64.le_num, decide_eq_false (by norm_num), decide_eq_false (by norm_num)]
    rfl
  cases fuel with
  | zero => rw [lineSearch, c0]; rfl
  | succ n =>
    rw [lineSearch, c0]
    simp only [qline, qlineLoop, btSearch, evalG, readF, a1, a2, a3, FM.bind_apply, FM.attempt, b1, b2, c1, c2, c3, c4,
      if_true, Bool.false_eq_true, if_false, FM.pure_apply, FM.throw_apply, wall_btLoop]

/-- **C127, limit of the claim.** With upward rounding and the largest double below 1 as `tau`, the run never ends:
the step stays at 0.2, and the first search goes on for ever. -/
theorem C127_not_upward (fuel rank : ℕ) (w : NState (F64 upwardDouble) (F64 upwardDouble)) :
    Stored wallPrm.tau ∧ nlcg wallOps wallPrm fuel rank w = none := by
  refine ⟨upward_tau, ?_⟩
  have h1 : (Arith.abs (F64.num (-1) : F64 upwardDouble) <ᶠ .num (1 / 10 ^ 6)) = false := by
    show decide (|(-1 : ℝ)| < 1 / 10 ^ 6) = false
    rw [decide_eq_false]
    norm_num
  have b1 : ∀ s, wallOps.construct s = (.ok (), s) := fun _ => rfl
  have b2 : ∀ s, wallOps.setup s = (.ok (), .num 0) := fun _ => rfl
  have b3 : ∀ x s, wallOps.restarted x s = (.ok (.num (-1), ()), s) := fun _ _ => rfl
  have b4 : ∀ s, wallOps.hostPrint s = (.ok (), s) := fun _ => rfl
  have b5 : ∀ x s, wallOps.gather x s = (.ok (), s) := fun _ _ => rfl
  simp only [nlcg, FM.bind_apply, FM.modify_apply, liftOp, b1, b2, b3]
  show cgLoop wallOps wallPrm fuel rank 100 0 _ _ = none
  rw [cgLoop]
  simp only [FM.bind_apply, emit, FM.modify_apply]
  have h2 : wallPrm.tol = .num (1 / 10 ^ 6) := rfl
  have h3 : wallPrm.tau = lastTau := rfl
  rw [h2, h1]
  simp only [Bool.false_eq_true, if_false, FM.bind_apply, FM.attempt, cgBody, writeJson, setInfo, FM.modify_apply,
    liftOp, b4, b5, runSearch, h3, Nat.zero_mod, if_true, wall_search]

end Nlcg
