import Verif.Proofs.WellPosed
import Verif.Props.OpCalls

/-!
# C123: the linear algebra of a run is well-posed
-/

namespace Nlcg
open Matrix Spec ComplexOrder

variable {K : ℕ} {n b : Fin K → ℕ} {η : Type} {host : Host η n b} {A : Operators η n b} {c : Cfg n b}
  {prm : NlcgParams ℝ} {fuel rank : ℕ}

/-- **C123.** A LAPACK that gives the same answers to well-posed questions, and does whatever it likes with others, makes
no difference to the run: only well-posed questions are asked. -/
theorem C123_lapack (hs : Setting host c) {la' : Lapack} (hl : SameAnswers c.la la') (w : NState ℝ (SState η n b))
    (h0 : SStart host c w.s) : solve host { c with la := la' } prm fuel rank w = solve host c prm fuel rank w :=
  (lapack_run hs hl prm fuel rank w h0).symm

/-- **C123.** No factorisation reports failure: whatever a LAPACK returns along with a return code that is not zero makes
no difference to the run, although the code is dropped. -/
theorem C123_codes (hs : Setting host c) {la' : Lapack}
    (hf : ∀ {m : ℕ} (A : Mat m m), (c.la.potrf A).2 = 0 → la'.potrf A = c.la.potrf A)
    (hp : ∀ {m l : ℕ} (A : Mat m m) (B : Mat m l), (c.la.potrf A).2 = 0 →
      la'.potrs (c.la.potrf A).1 B = c.la.potrs (c.la.potrf A).1 B)
    (he : ∀ {m : ℕ} (A : Mat m m), A.IsHermitian → la'.heevd A = c.la.heevd A) (w : NState ℝ (SState η n b))
    (h0 : SStart host c w.s) : solve host { c with la := la' } prm fuel rank w = solve host c prm fuel rank w :=
  C123_lapack hs ⟨fun A hA => hf A ((hs.lapack.chol A).2 hA),
    fun A B hA => hp A B ((hs.lapack.chol A).2 hA), he⟩ w h0

/-- **C123.** Every matrix that the overlap operator is applied to in a run, however it ends and however long the steps
are, has an overlap matrix that is at least the unit matrix: the orthonormalisation never divides by less than one. -/
theorem C123_overlap (hs : Setting host c) (hA : Multiply A c) (hc : OccHard c) {w w' : NState ℝ (OState η n b)}
    {o : Res (Info ℝ)} (h : solveO host A c prm fuel rank w = some (o, w')) (h0 : SStart host c w.s.s)
    (hw : w.s.log = []) : SafeOverlaps c.S w'.s.log :=
  ((safe_rule hs hA hc).run h ⟨h0, by rw [hw]; exact SafeOverlaps.nil⟩).1

/-! ## Examples -/

open Classical in
/-- a LAPACK that returns zeros, and reports success, when asked to factorise a matrix that is not positive definite or to
diagonalise one that is not Hermitian -/
noncomputable def sloppy (la : Lapack) : Lapack where
  potrf {_} A := if A.PosDef then la.potrf A else (0, 0)
  potrs {_ _} F B := la.potrs F B
  heevd {_} A := if A.IsHermitian then la.heevd A else ((0, 0), 0)

theorem sloppy_same (la : Lapack) : SameAnswers la (sloppy la) :=
  ⟨fun A h => by simp [sloppy, h], fun A B h => by simp [sloppy], fun A h => by simp [sloppy, h]⟩

/-- a run that returns -/
example (prm : NlcgParams ℝ) (htol : 0 < prm.tol) (htau : prm.tau < 1) (hr : prm.restart ≠ 0) :
    ∃ fuel info w', solve demoHost { demoCfg demoOcc with la := sloppy (demoCfg demoOcc).la } prm fuel 0 (demoStart 5)
      = some (.ok info, w') := by
  obtain ⟨fuel, info, w', h⟩ := demo_returns prm htol htau hr
  exact ⟨fuel, info, w', (C123_lapack demo_settings.1 (sloppy_same _) _ (demo_start _ _ 5)).trans h⟩

/-- a run that returns and has applied the overlap operator -/
example (prm : NlcgParams ℝ) (htol : 0 < prm.tol) (htau : prm.tau < 1) (hr : prm.restart ≠ 0) :
    ∃ fuel info w', solveO demoHost idOps (demoCfg demoOcc) prm fuel 0 opStart = some (.ok info, w') ∧
      SafeOverlaps (demoCfg demoOcc).S w'.s.log := by
  obtain ⟨fuel, info, v, h⟩ := demo_returns prm htol htau hr
  have h1 := C122_agrees (host := demoHost) (prm := prm) (fuel := fuel) (rank := 0) idOps_multiply opStart
  rw [show withoutRecord opStart = demoStart 5 from rfl, h] at h1
  rcases hq : solveO demoHost idOps (demoCfg demoOcc) prm fuel 0 opStart with _ | ⟨o, w'⟩
  · rw [hq] at h1; cases h1
  · rw [hq] at h1
    simp only [Option.map_some, Option.some.injEq, Prod.mk.injEq] at h1
    obtain ⟨rfl, -⟩ := h1
    exact ⟨fuel, info, w', hq, C123_overlap demo_settings.1 idOps_multiply demoOcc_hard hq (demo_start _ _ 5) rfl⟩

end Nlcg
