import Verif.Proofs.HostError
import Verif.Proofs.HostLog
import Verif.Props.Solver

/-!
# C117: an error of the host reaches the caller, at once
-/

namespace Nlcg
open Matrix Spec Arith

variable {K : ℕ} {n b : Fin K → ℕ} {η : Type} {host : Host η n b} {c : Cfg n b} {log : η → List Bool}
  {prm : NlcgParams ℝ} {fuel rank : ℕ}

/-- **C117.** If a call of the host throws during a run, the run ends with that exception, and the call that
threw is the last one. -/
theorem C117_error_ends_run (hl : KeepsLog host log) {w : NState ℝ (SState η n b)} {o : Res (Info ℝ)}
    {w' : NState ℝ (SState η n b)} (h : solve host c prm fuel rank w = some (o, w'))
    (h0 : NoneThrew (log w.s.h)) (hf : false ∈ log w'.s.h) :
    o = .throw .runtimeError ∧ LastThrew (log w'.s.h) := by
  rcases (fate_rule hl c).run h h0 with h1 | ⟨h1, h2⟩
  · exact absurd (h1 _ hf) (by simp)
  · exact ⟨h1, h2⟩

/-- **C117.** If a run returns a result, or ends in any other way, then no call of the host has thrown. -/
theorem C117_none_swallowed (hl : KeepsLog host log) {w : NState ℝ (SState η n b)} {o : Res (Info ℝ)}
    {w' : NState ℝ (SState η n b)} (h : solve host c prm fuel rank w = some (o, w'))
    (h0 : NoneThrew (log w.s.h)) (ho : o ≠ .throw .runtimeError) : NoneThrew (log w'.s.h) := by
  rcases (fate_rule hl c).run h h0 with h1 | ⟨h1, -⟩
  · exact h1
  · exact absurd h1 ho

/-- **C117.** Every host can be given such a record, and a run does not notice. -/
theorem C117_any_host (host : Host η n b) :
    KeepsLog (withLog host) Prod.snd ∧
    ∀ (c : Cfg n b) (prm : NlcgParams ℝ) (fuel rank : ℕ) (w : NState ℝ (SState (η × List Bool) n b)),
      solve host c prm fuel rank (withoutLog w)
        = (solve (withLog host) c prm fuel rank w).map fun q => (q.1, withoutLog q.2) :=
  ⟨withLog_keeps host, fun _ prm fuel rank w => log_run prm fuel rank w⟩

/-! ## Examples -/

/-- the initial state of the example, with a counter and a record -/
noncomputable def breakStart : NState ℝ (SState ((LState demoN demoB × ℕ) × List Bool) demoN demoB) :=
  { s := { h := (((demoStart 5).s.h, 0), []), F := 5, S := 0, calls := [] },
    file := [], info := { vals := none, converged := false }, force := false, trace := [] }

/-- a host that throws in its fourth call, the first `compute` with occupations set: the run ends with the
exception, after four calls -/
theorem break_run (prm : NlcgParams ℝ) (fuel : ℕ) : ∃ w',
    solve (withLog (breaksAt 3 demoHost)) (demoCfg demoOcc) prm fuel 0 breakStart
      = some (.throw .runtimeError, w') ∧ w'.s.h.2 = [true, true, true, false] := by
  have hs : ∃ s', (solverOps (withLog (breaksAt 3 demoHost)) (demoCfg demoOcc)).setup breakStart.s
      = (.throw .runtimeError, s') ∧ s'.h.2 = [true, true, true, false] := by
    show ∃ s', solverSetup (withLog (breaksAt 3 demoHost)) (demoCfg demoOcc) breakStart.s = (_, s') ∧ _
    refine ⟨_, rfl, rfl⟩
  obtain ⟨s', h1, h2⟩ := hs
  have hc : (solverOps (withLog (breaksAt 3 demoHost)) (demoCfg demoOcc)).construct breakStart.s
      = (.ok (), breakStart.s) := by
    simp [solverOps, demoCfg]
  refine ⟨{ breakStart with s := s' }, ?_, h2⟩
  have e : ∀ w : NState ℝ (SState ((LState demoN demoB × ℕ) × List Bool) demoN demoB), w = breakStart →
      solve (withLog (breaksAt 3 demoHost)) (demoCfg demoOcc) prm fuel 0 w
        = some (.throw .runtimeError, { breakStart with s := s' }) := by
    intro w hw
    simp only [solve, nlcg, FM.bind_apply, FM.modify, liftOp, hw, hc, h1]
    rfl
  exact e _ rfl

example (prm : NlcgParams ℝ) (fuel : ℕ) : ∃ w',
    solve (withLog (breaksAt 3 demoHost)) (demoCfg demoOcc) prm fuel 0 breakStart
      = some (.throw .runtimeError, w') ∧ LastThrew w'.s.h.2 := by
  obtain ⟨w', h1, h2⟩ := break_run prm fuel
  exact ⟨w', h1, (C117_error_ends_run (withLog_keeps _) h1 (by intro x hx; cases hx) (by rw [h2]; simp)).2⟩

/-- and a run whose host never throws -/
example (prm : NlcgParams ℝ) (htol : 0 < prm.tol) (htau : prm.tau < 1) (hr : prm.restart ≠ 0) :
    ∃ fuel info w', solve (withLog demoHost) (demoCfg demoOcc) prm fuel 0
      { demoStart 5 with s := { (demoStart 5).s with h := ((demoStart 5).s.h, []) } } = some (.ok info, w') ∧
      NoneThrew w'.s.h.2 := by
  obtain ⟨fuel, info, v, h⟩ := demo_returns prm htol htau hr
  have h1 := (C117_any_host demoHost).2 (demoCfg demoOcc) prm fuel 0
    { demoStart 5 with s := { (demoStart 5).s with h := ((demoStart 5).s.h, []) } }
  rw [show withoutLog _ = demoStart 5 from rfl, h] at h1
  rcases hq : solve (withLog demoHost) (demoCfg demoOcc) prm fuel 0
    { demoStart 5 with s := { (demoStart 5).s with h := ((demoStart 5).s.h, []) } } with _ | ⟨o, w'⟩
  · rw [hq] at h1; cases h1
  · rw [hq] at h1
    simp only [Option.map_some, Option.some.injEq, Prod.mk.injEq] at h1
    obtain ⟨rfl, -⟩ := h1
    refine ⟨fuel, info, w', hq, C117_none_swallowed (withLog_keeps _) hq (by intro x hx; cases hx) (by simp)⟩

end Nlcg
