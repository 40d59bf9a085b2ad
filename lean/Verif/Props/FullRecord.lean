import Verif.Proofs.FullRecord
import Verif.Props.Solver

/-!
# C112: A step record describes one state
-/

namespace Nlcg
open Matrix Spec

variable {K : ℕ} {n b : Fin K → ℕ} {η : Type} {host : Host η n b} {c : Cfg n b} {prm : NlcgParams ℝ}
  {fuel rank : ℕ} {w w' : NState ℝ (SState η n b)} {l recs : List (StepRec b)} {o : Res (Info ℝ)}

/-- Keeping the whole records changes nothing of the run. -/
theorem C112_same_run (host : Host η n b) (c : Cfg n b) (prm : NlcgParams ℝ) (fuel rank : ℕ)
    (w : NState ℝ (SState η n b)) (l : List (StepRec b)) :
    (solveRec host c prm fuel rank (w, l)).map (fun x => (x.1, x.2.1)) = solve host c prm fuel rank w :=
  (solveRec_covers host c prm fuel rank).same w l

/-- **C112.** However a run ends, all entries of each of its records belong to one state: the Fermi level is
the one found for the band energies, the entropy term is theirs, the occupations are theirs, and the total
energy is what the host told for the orbitals with these occupations and differs from the free energy by the
entropy term. -/
theorem C112_one_state (hs : Setting host c) (hd : Rereads host) (hT : c.T ≠ 0) (h0 : SStart host c w.s)
    (h : solveRec host c prm fuel rank (w, l) = some (o, (w', recs))) (r : StepRec b) (hm : r ∈ recs) :
    ∃ (X : Orbitals n b) (ek : Bands b) (mu E : ℝ), Describes c X ek mu E r ∧
      ∃ h h', host.C h = X ∧ host.fn h = occs c.t c.T c.mo ek mu ∧ host.energy h = (some E, h') := by
  obtain ⟨i, slope, pt, s, ⟨⟨hJ, hS, h1, E, h2, he, hC, hf, hF⟩, E', hE, hF'⟩, rfl⟩ :=
    (solveRec_made (solver_told_rule hs hd) h h0 hT).1 r hm
  have hEE : E' = E := by linarith
  subst hEE
  refine ⟨pt.X, pt.ek, pt.mu, E', ⟨hJ.at_.2.1, hJ.at_.2.2, hJ.at_.1.mu, hE,
    hS.trans (entropyTerm_ofFn _ _ _ _ _ _), hF, ?_⟩, h1, h2, hC, hf, he⟩
  simp only [stepRec, hJ.fn, Nat.dvd_iff_mod_eq_zero]

/-- **C112.** The records are those of the step log: on rank 0, in order, with the same numbers, free energies,
entropy terms and slopes, and with band data in the same records. -/
theorem C112_step_log (hs : Setting host c) (hT : c.T ≠ 0) (h0 : SStart host c w.s)
    (h : solveRec host c prm fuel 0 (w, l) = some (o, (w', recs))) :
    w'.file = recs.map fun r => { step := r.step, F := r.F, entropy := r.entropy, slope := r.slope,
                                  bands := r.bands.isSome } := by
  have := (solveRec_made (solver_rule hs) h h0 hT).2
  rw [if_pos rfl] at this
  exact this

theorem demo_rereads : Rereads demoHost :=
  ⟨by rintro h E h' ⟨⟩; rfl, by rintro h h' ⟨⟩; rfl⟩

/-- runs with records -/
example (prm : NlcgParams ℝ) (htol : 0 < prm.tol) (htau : prm.tau < 1) (hr : prm.restart ≠ 0)
    (hm : 1 ≤ prm.maxiter) : ∃ fuel info w' recs,
    solveRec demoHost (demoCfg demoOcc) prm fuel 0 (demoStart 5, []) = some (.ok info, (w', recs)) ∧
    recs ≠ [] ∧ ∀ r ∈ recs, ∃ E, r.eks = some E ∧ r.F = E + r.entropy := by
  obtain ⟨fuel, info, w', h⟩ := demo_returns prm htol htau hr
  have hsame := C112_same_run demoHost (demoCfg demoOcc) prm fuel 0 (demoStart 5) []
  rcases hq : solveRec demoHost (demoCfg demoOcc) prm fuel 0 (demoStart 5, []) with _ | ⟨o, w1, recs⟩
  · rw [hq, h] at hsame; cases hsame
  rw [hq, h] at hsame
  simp only [Option.map_some, Option.some.injEq, Prod.mk.injEq] at hsame
  obtain ⟨rfl, rfl⟩ := hsame
  have hT : (demoCfg demoOcc).T ≠ 0 := by norm_num [demoCfg]
  refine ⟨fuel, info, w1, recs, hq, ?_, fun r hr' => ?_⟩
  · rintro rfl
    have h1 := C112_step_log demo_settings.1 hT (demo_start _ _ _) hq
    have h2 := C35_log_is_what_was_reported _ (solver_clean demoHost (demoCfg demoOcc)
      (fun _ => by simp [demoCfg, demoOcc, Res.Clean])) (solver_quiet _ _) prm fuel _ _ info h
    obtain ⟨vals, slope, e1, -, -, -, e5, -⟩ :=
      nlcg_record _ (solver_clean demoHost (demoCfg demoOcc) (fun _ => by simp [demoCfg, demoOcc, Res.Clean]))
        (solver_quiet _ _) prm fuel 0 _ _ info hm h
    rw [h1] at h2
    rw [← h2] at e5
    simp at e5
  · obtain ⟨X, ek, mu, E, hD, -⟩ := C112_one_state demo_settings.1 demo_rereads hT (demo_start _ _ _) hq r hr'
    exact ⟨E, hD.eks, hD.F⟩

end Nlcg
