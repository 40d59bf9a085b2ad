import Verif.Proofs.DirCount
import Verif.Props.Solver

/-!
# C122: which callbacks are called, in which order, with what, and what becomes of their errors
-/

namespace Nlcg
open Matrix Spec

variable {K : ℕ} {n b : Fin K → ℕ} {η : Type} {host : Host η n b} {A : Operators η n b} {c : Cfg n b}
  {prm : NlcgParams ℝ} {fuel rank : ℕ} {w w' : NState ℝ (OState η n b)} {o : Res (Info ℝ)}

/-- **C122.** Whatever the operators do, the calls of a run that returns form a legal history, and those of a run that
ends in any other way the first part of one. -/
theorem C122_protocol (hh : HostOk host) (hc : OccHard c) (h : solveO host A c prm fuel rank w = some (o, w'))
    (h0 : w.s.log = []) :
    BrokenOff w'.s.log ∧ ((∃ info, o = .ok info) → ∃ X, History w'.s.log (some X)) := by
  obtain ⟨h1, -, h2⟩ := (op_rule hh A hc).run h h0
  exact ⟨h1, fun ⟨info, hi⟩ => (h2 info hi).1⟩

/-- **C122.** If a callback, an operator included, throws, the run ends with that exception, and the call that threw
is the last one and the only one that threw. -/
theorem C122_error (h : solveO host A c prm fuel rank w = some (o, w')) (h0 : w.s.log = [])
    (ht : ∃ e ∈ w'.s.log, Threw e) :
    o = .throw .runtimeError ∧ ∃ l e, (∀ e' ∈ l, ¬ Threw e') ∧ Threw e ∧ w'.s.log = l ++ [e] := by
  rcases (op_fate host A c).run h (by rw [AllWell, h0]; intro e he; cases he) with h1 | h1
  · obtain ⟨e, he, ht⟩ := ht
    exact absurd ht (h1 e he)
  · exact h1

/-- **C122.** Operators that multiply with matrices: the run is that of the other properties. -/
theorem C122_agrees (hA : Multiply A c) (w : NState ℝ (OState η n b)) :
    solve host c prm fuel rank (withoutRecord w)
      = (solveO host A c prm fuel rank w).map fun q => (q.1, withoutRecord q.2) :=
  op_run host hA prm fuel rank w

/-- **C122.** However a run ends, and whatever the callbacks do, the preconditioner has been applied at most
`3 (1 + 2 maxiter)` times at each k-point. -/
theorem C122_preconditioner (h : solveO host A c prm fuel rank w = some (o, w')) (h0 : w.s.log = []) (k : Fin K) :
    appliedP k w'.s.log ≤ 3 * (1 + 2 * prm.maxiter.toNat) := by
  have := (op_directions host A c k).run h
  rw [h0] at this
  simpa [appliedP] using this

/-- **C122.** In a run that returns, with `E` evaluations and `D` directions, both operators are applied equally often
at all k-points: the overlap operator `E - 1 + D` times and the preconditioner `3 D` times, where `D` is at most
`1 + 2 maxiter`. -/
theorem C122_cost (hh : HostOk host) (hc : OccHard c) {info : Info ℝ}
    (h : solveO host A c prm fuel rank w = some (.ok info, w')) (h0 : w.s.log = []) :
    ∃ D ≤ 1 + 2 * prm.maxiter.toNat, 1 ≤ energies w'.s.log ∧
      ∀ k, appliedS k w'.s.log = energies w'.s.log - 1 + D ∧ appliedP k w'.s.log = 3 * D := by
  obtain ⟨X, hX⟩ := (C122_protocol hh hc h h0).2 ⟨info, rfl⟩
  obtain ⟨D, h1, h2⟩ := (history_counts hX).2 (by simp)
  rcases isEmpty_or_nonempty (Fin K) with he | ⟨⟨k⟩⟩
  · exact ⟨0, Nat.zero_le _, h1, fun k => he.elim k⟩
  · refine ⟨D, ?_, h1, h2⟩
    have := C122_preconditioner h h0 k
    have := (h2 k).2
    omega

/-- **C122.** The searches of the library are as assumed: they throw none of the exceptions that the solver uses
internally. -/
theorem C122_search {useNewton : Bool} {t : SmearType} {p : OccParams ℝ} {key : Fin K → Key} {wk : Fin K → ℝ}
    (hocc : c.occ = searchOcc useNewton t p key wk) : OccHard c := by
  intro ek
  rw [hocc]
  exact searchOcc_foreign useNewton t p key wk ek

/-! ## Examples -/

/-- an initial state with an empty record -/
noncomputable def opStart : NState ℝ (OState (LState demoN demoB) demoN demoB) :=
  { s := { s := (demoStart 5).s, log := [] },
    file := [], info := { vals := none, converged := false }, force := false, trace := [] }

/-- operators that do nothing -/
def idOps : Operators (LState demoN demoB) demoN demoB := ⟨fun _ x h => (some x, h), fun _ x h => (some x, h)⟩

theorem idOps_multiply : Multiply idOps (demoCfg demoOcc) :=
  ⟨fun k x h => by simp [idOps, demoCfg], fun k x h => by simp [idOps, demoCfg]⟩

theorem demoOcc_hard : OccHard (demoCfg demoOcc) := by rintro ek e ⟨⟩

example : OccHard (demoCfg demoSearch) := C122_search rfl

/-- a run that returns, and what it costs -/
example (prm : NlcgParams ℝ) (htol : 0 < prm.tol) (htau : prm.tau < 1) (hr : prm.restart ≠ 0) :
    ∃ fuel info w', solveO demoHost idOps (demoCfg demoOcc) prm fuel 0 opStart = some (.ok info, w') ∧
      (∃ X, History w'.s.log (some X)) ∧
      ∃ D ≤ 1 + 2 * prm.maxiter.toNat,
        ∀ k, appliedS k w'.s.log = energies w'.s.log - 1 + D ∧ appliedP k w'.s.log = 3 * D := by
  obtain ⟨fuel, info, v, h⟩ := demo_returns prm htol htau hr
  have h1 := C122_agrees (host := demoHost) (prm := prm) (fuel := fuel) (rank := 0) idOps_multiply opStart
  rw [show withoutRecord opStart = demoStart 5 from rfl, h] at h1
  rcases hq : solveO demoHost idOps (demoCfg demoOcc) prm fuel 0 opStart with _ | ⟨o, w'⟩
  · rw [hq] at h1; cases h1
  · rw [hq] at h1
    simp only [Option.map_some, Option.some.injEq, Prod.mk.injEq] at h1
    obtain ⟨rfl, -⟩ := h1
    obtain ⟨D, hD', -, hD⟩ := C122_cost demo_settings.1.host demoOcc_hard hq rfl
    exact ⟨fuel, info, w', hq, (C122_protocol demo_settings.1.host demoOcc_hard hq rfl).2 ⟨_, rfl⟩, D, hD', hD⟩

/-- an overlap operator that throws -/
def badS : Operators (LState demoN demoB) demoN demoB := ⟨fun _ _ h => (none, h), fun _ x h => (some x, h)⟩

/-- the run ends in the first search direction, after seven calls -/
theorem badS_run (prm : NlcgParams ℝ) (fuel : ℕ) : ∃ w',
    solveO demoHost badS (demoCfg demoOcc) prm fuel 0 opStart = some (.throw .runtimeError, w') ∧
      w'.s.log.length = 7 ∧ (.S 0 !![1; 0] none : Entry demoN demoB) ∈ w'.s.log := by
  have hs : ∃ pt s', (opOps demoHost badS (demoCfg demoOcc)).setup opStart.s = (.ok pt, s') ∧ s'.log.length = 6 ∧
      pt.X 0 = !![1; 0] := by
    show ∃ pt s', setupO demoHost (demoCfg demoOcc) opStart.s = (.ok pt, s') ∧ _
    exact ⟨_, _, rfl, rfl, rfl⟩
  obtain ⟨pt, s', h1, h2, h3⟩ := hs
  have hc : (opOps demoHost badS (demoCfg demoOcc)).construct opStart.s = (.ok (), opStart.s) := by
    simp [opOps, demoCfg]
  have hr : (opOps demoHost badS (demoCfg demoOcc)).restarted pt s'
      = (.throw .runtimeError, { s := s'.s, log := s'.log ++ [.S 0 (pt.X 0) none] }) := rfl
  refine ⟨{ opStart with s := { s := s'.s, log := s'.log ++ [.S 0 (pt.X 0) none] } }, ?_, by simp [h2], by simp [h3]⟩
  have e : ∀ w : NState ℝ (OState (LState demoN demoB) demoN demoB), w = opStart →
      solveO demoHost badS (demoCfg demoOcc) prm fuel 0 w
        = some (.throw .runtimeError, { opStart with s := { s := s'.s, log := s'.log ++ [.S 0 (pt.X 0) none] } }) := by
    intro w hw
    simp only [solveO, nlcg, FM.bind_apply, FM.modify, liftOp, hw, hc, h1, hr]
    rfl
  exact e _ rfl

example (prm : NlcgParams ℝ) (fuel : ℕ) : ∃ o w',
    solveO demoHost badS (demoCfg demoOcc) prm fuel 0 opStart = some (o, w') ∧ o = .throw .runtimeError ∧
      ∃ l e, (∀ e' ∈ l, ¬ Threw e') ∧ Threw e ∧ w'.s.log = l ++ [e] := by
  obtain ⟨w', h1, -, h2⟩ := badS_run prm fuel
  exact ⟨_, w', h1, C122_error h1 rfl ⟨_, h2, rfl⟩⟩

end Nlcg
