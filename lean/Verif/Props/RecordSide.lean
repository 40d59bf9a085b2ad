import Verif.Proofs.RecordSide
import Verif.Props.Solver

/-!
# C33: which way the record errs

`C33_record_matches_backend_partial` says when the free energy in the record is the one in the backend. If it is not, the
sign of the difference tells how the run has ended.
-/

namespace Nlcg
open Matrix Spec

section
variable {σ ρ δ : Type}

/-- **C33.** If re-evaluating the current point reproduces its energy: at the iteration limit the backend is not above the
record, it may have moved on to a lower point. After a failed search it is not below the record: it has been left at the
last trial point. -/
theorem C33_direction_partial (ops : Ops ℝ σ ρ δ) (E : ρ → ℝ) (hc : ops.Clean) (hE : ops.Reproducible E)
    (prm : NlcgParams ℝ) (hm : 1 ≤ prm.maxiter) (fuel rank : Nat) (w w' : NState ℝ σ) (info : Info ℝ)
    (h : nlcg ops prm fuel rank w = some (.ok info, w')) :
    ∃ vals, info.vals = some vals ∧
      ((∀ j e, Ev.failed j e ∉ w'.trace) → ops.getF w'.s ≤ vals.F) ∧
      (∀ j, Ev.failed j .descentError ∈ w'.trace → vals.F ≤ ops.getF w'.s) := by
  have hr := nlcg_run ops prm fuel rank w _ _ h
  generalize ho : (Res.ok info : Res (Info ℝ)) = o at hr
  cases hr with
  | construct => exact absurd ho.symm (Res.fail_ne_ok _ _)
  | setup => exact absurd ho.symm (Res.fail_ne_ok _ _)
  | restarted => exact absurd ho.symm (Res.fail_ne_ok _ _)
  | loop s1 pt s2 slope dir s3 o w' h1 h2 h3 h4 =>
    have hF : ops.getF s3 = E pt := by
      have := hE.restarted pt s2
      rw [h3] at this
      exact this.trans (hE.setup _ _ _ h2)
    rcases h4.side hc hE hF info ho.symm with ⟨h5, -⟩ | ⟨vals, tail, e1, e2, e3⟩
    · omega
    · simp only [List.nil_append] at e2
      refine ⟨vals, e1, fun hn => ?_, fun j hj => ?_⟩
      · rw [e2] at hn
        rcases e3 with ⟨e3, -⟩ | ⟨⟨j, e3⟩, -⟩ | ⟨-, j, e3⟩
        · exact e3
        · exact absurd e3 (hn j _)
        · exact absurd e3 (hn j _)
      · rw [e2] at hj
        rcases e3 with ⟨-, e3⟩ | ⟨-, e3⟩ | ⟨e3, -⟩
        · exact absurd hj (e3 j _)
        · exact absurd hj (e3 j)
        · exact e3

end

section
variable {K : ℕ} {n b : Fin K → ℕ} {η : Type} {host : Host η n b} {c : Cfg n b}

theorem guarded_clean (hc : ∀ ek, (c.occ ek).Clean) : (guardedOps host c).Clean :=
  { solver_clean host c hc with
    geo := fun pt dir t s => by
      show (guardedGeo host c pt dir t s).1.Clean
      rw [guardedGeo]
      split
      · exact (solver_clean host c hc).geo pt dir t s
      · simp [Res.Clean]
    setup := fun s => by
      show (guardedSetup host c s).1.Clean
      rw [guardedSetup]
      split
      · exact (solver_clean host c hc).setup s
      · simp [Res.Clean] }

/-- **C33** for the solver, if the host's energy is a function of the density matrices -/
theorem C33_run_direction_partial (hs : Setting host c) {E : Orbitals n b → Bands b → ℝ} (hE : EnergyOf host c E)
    (hc : ∀ ek, (c.occ ek).Clean) {prm : NlcgParams ℝ} (hm : 1 ≤ prm.maxiter) {fuel rank : ℕ}
    {w w' : NState ℝ (SState η n b)} {info : Info ℝ} (h0 : SStart host c w.s)
    (h : solve host c prm fuel rank w = some (.ok info, w')) :
    ∃ vals, info.vals = some vals ∧
      ((∀ j e, Ev.failed j e ∉ w'.trace) → w'.s.F ≤ vals.F) ∧
      (∀ j, Ev.failed j .descentError ∈ w'.trace → vals.F ≤ w'.s.F) := by
  rw [solve_guarded hs prm fuel rank w h0] at h
  exact C33_direction_partial _ _ (guarded_clean hc) (solver_reproducible hs hE) prm hm fuel rank w w' info h

end

/-- the runs of `C33_not_at_iteration_limit` and `C33_not_after_failed_search`: below in the first, above in the second -/
example : (∃ vals w', nlcg (toyOps (1 : ℚ)) { maxiter := 1, tol := 1 / 100, tau := 1 / 10, restart := 2 } 9 0 (blank 7)
      = some (.ok { vals := some vals, converged := false }, w') ∧ (toyOps (1 : ℚ)).getF w'.s < vals.F) ∧
    ∃ vals w', nlcg badOps { maxiter := 5, tol := 1 / 100, tau := 1 / 1000, restart := 2 } 9 0 (blank 7)
      = some (.ok { vals := some vals, converged := false }, w') ∧ vals.F < badOps.getF w'.s := by
  constructor
  · have h := C33_not_at_iteration_limit
    rw [Option.map_eq_some_iff] at h
    obtain ⟨⟨o, w'⟩, h1, h2⟩ := h
    simp only [Prod.mk.injEq] at h2
    obtain ⟨rfl, h3⟩ := h2
    exact ⟨_, w', h1, by rw [h3]; norm_num⟩
  · have h := C33_not_after_failed_search
    rw [Option.map_eq_some_iff] at h
    obtain ⟨⟨o, w'⟩, h1, h2⟩ := h
    simp only [Prod.mk.injEq] at h2
    obtain ⟨rfl, h3⟩ := h2
    exact ⟨_, w', h1, by rw [h3]; norm_num⟩

end Nlcg
