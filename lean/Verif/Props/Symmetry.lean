import Verif.Proofs.Symmetry

/-!
# C113: the symmetry of the start is kept

`SymmetricSystem U c`, `SymmetricHost U host`, `turned U host`, `Invariant`, `Definite` are in
`Spec/Symmetry.lean`.
-/

namespace Nlcg
open Spec Matrix ComplexOrder

variable {K : ℕ} {n b : Fin K → ℕ} {η : Type} {U : Turn n} {host : Host η n b} {c : Cfg n b}
  {prm : NlcgParams ℝ} {fuel rank : ℕ} {w w' : NState ℝ (SState η n b)} {r : Res (Info ℝ)}

/-- **C113.** In exact arithmetic, let `U` be a symmetry of the system that leaves all starting orbitals alone.
Then it leaves alone all orbitals that the run ever gives to the host, those of trial steps included, and those
that it ends with. -/
theorem C113_invariant (H : SymmetricHost U host) (hc : SymmetricSystem U c) (hwk : ∀ k, c.wk k ≠ 0)
    (hR : H.R w.s.h w.s.h) (hcalls : w.s.calls = []) (hrun : solve host c prm fuel rank w = some (r, w')) :
    Invariant U (host.C w'.s.h) ∧ ∀ X, .setC X ∈ w'.s.calls → Invariant U X := by
  obtain ⟨-, h2⟩ := C76_same_calls (prm := prm) (fuel := fuel) (rank := rank) H (SymmetricSystem_same hc hwk) hR
    ⟨rfl, rfl, rfl, rfl⟩
  obtain ⟨-, h3, l, e1, e2⟩ := h2 r w' r w' hrun hrun
  refine ⟨fun k => (h3 k).symm, fun X hX => ?_⟩
  rw [hcalls, List.nil_append] at e1 e2
  have e3 : l.map (expandCall (n := n) (b := b) id U) = l := e1.symm.trans e2
  rw [e2] at hX
  have h4 := List.map_eq_iff.1 e3
  obtain ⟨i, hi, hi'⟩ := List.mem_iff_getElem.1 hX
  have h5 := h4 i
  rw [List.getElem?_eq_getElem hi, hi'] at h5
  simp only [Option.map_some, Option.some.injEq] at h5
  have h6 : HostCall.setC (n := n) (b := b) X = .setC (expand (n := n) (b := b) id U X) := h5
  have h7 := HostCall.setC.inj h6
  exact fun k => (congrFun h7 k).symm

/-- **C113.** In exact arithmetic, let `U` be a symmetry of the system that multiplies each starting orbital by a
phase, not necessarily the same. If no pseudo-Hamiltonian on the way has a repeated eigenvalue, then `U` also
multiplies each of the final orbitals by a phase. -/
theorem C113_definite (H : GaugeHost (turned U host) host) (hc : SymmetricSystem U c) (hs : Setting host c)
    (ht : EighTotal c.la) (ho : EighSorted c.la) {v : Phases b} (hv : IsPhase v) (hR : H.R v w.s.h w.s.h)
    (h0 : SStart host c w.s) (hm : MeetsSimple host c prm fuel rank w)
    (hrun : solve host c prm fuel rank w = some (r, w')) : Definite U (host.C w'.s.h) := by
  have h1 := C90_same_run_partial (la' := c.la) (jk := c.junk) (fuel := fuel) (rank := rank) H
    (turned_setting hc.unitary hs) hs ht ht ho ho hv hR h0.1 h0 ⟨rfl, rfl, rfl, rfl⟩ hm
  obtain ⟨h2, h3⟩ := C76_same_calls (prm := prm) (fuel := fuel) (rank := rank) (turned_same hc.unitary host)
    (SymmetricSystem_same hc fun k => (hs.weights k).ne') (w := w) (w' := w) rfl ⟨rfl, rfl, rfl, rfl⟩
  rw [hrun] at h2
  obtain ⟨⟨r1, w1⟩, h4, -⟩ := Option.map_eq_some_iff.1 h2
  obtain ⟨h5, -⟩ := h3 r1 w1 r w' h4 hrun
  obtain ⟨u, hu, h6, -⟩ := h1.2 r1 w1 r w' h4 hrun
  have h7 : w1.s.h = w'.s.h := h5
  rw [h7] at h6
  exact ⟨u, hu, fun k => congrFun h6 k⟩

/-! ## The assumptions can be met -/

/-- the second plane wave changes sign -/
noncomputable def reflect : Turn tieN := fun _ => (diagonal ![1, -1, 1] : Mat 3 3)

noncomputable def reflectH : (k : Fin 1) → Mat (tieN k) (tieN k) := fun _ => (!![1, 0, 1; 0, 2, 0; 1, 0, 5] : Mat 3 3)

theorem reflectH_herm (k : Fin 1) : (reflectH k).IsHermitian := by
  ext i j
  fin_cases i <;> fin_cases j <;> simp [reflectH]

theorem reflectH_comm (k : Fin 1) : reflectH k * reflect k = reflect k * reflectH k := by
  show (!![1, 0, 1; 0, 2, 0; 1, 0, 5] : Mat 3 3) * diagonal ![1, -1, 1]
    = diagonal ![1, -1, 1] * (!![1, 0, 1; 0, 2, 0; 1, 0, 5] : Mat 3 3)
  ext i j
  rw [mul_diagonal, diagonal_mul]
  fin_cases i <;> fin_cases j <;> simp

theorem reflect_system (la : Lapack) : SymmetricSystem reflect (pairCfg la) where
  unitary k := by
    show (diagonal ![1, -1, 1] : Mat 3 3)ᴴ * diagonal ![1, -1, 1] = 1
    rw [diagonal_conjTranspose, diagonal_mul_diagonal, ← diagonal_one]
    congr 1
    funext i
    fin_cases i <;> simp
  S k := by show (1 : Mat 3 3) * reflect k = reflect k * (1 : Mat 3 3); rw [Matrix.one_mul, Matrix.mul_one]
  P k := by show (1 : Mat 3 3) * reflect k = reflect k * (1 : Mat 3 3); rw [Matrix.one_mul, Matrix.mul_one]

noncomputable def reflectHost : Host (LState tieN tieB) tieN tieB := linearHost reflectH fun _ => 1

theorem reflect_setting {la : Lapack} (h : LapackOk la) : Setting reflectHost (pairCfg la) where
  host := linearHost_ok _ reflectH_herm _
  lapack := h
  overlap := fun _ => PosSemidef.one
  prec := fun _ => PosDef.one
  weights := fun _ => one_pos
  occ := by rintro ek mu f ⟨⟩; rfl

theorem reflect_distinct (h : LState tieN tieB)
    (hh : reflectHost.compute (pairStart fun _ => tieX).s.h = (some (), h)) : Distinct (reflectHost.ek h) := by
  cases hh
  intro k i j hij
  replace hij : ((tieXᴴ * ((!![1, 0, 1; 0, 2, 0; 1, 0, 5] : Mat 3 3) * tieX) : Mat 2 2) i i).re
    = ((tieXᴴ * ((!![1, 0, 1; 0, 2, 0; 1, 0, 5] : Mat 3 3) * tieX) : Mat 2 2) j j).re := hij
  fin_cases i <;> fin_cases j <;> simp [tieX, mul_apply, Fin.sum_univ_three] at hij ⊢

/-- the first orbital is even, the second one odd -/
def evenOdd : Phases tieB := fun _ => (![1, -1] : Fin 2 → ℂ)

/-- one even and one odd orbital stay even or odd, although the first one is not yet an eigenvector -/
example (prm : NlcgParams ℝ) (hm : 1 ≤ prm.maxiter) (hr : prm.restart ≠ 0) (fuel rank : ℕ) (r : Res (Info ℝ))
    (w' : NState ℝ (SState (LState tieN tieB) tieN tieB))
    (hrun : solve reflectHost (pairCfg (sorted refLapack)) prm fuel rank (pairStart fun _ => tieX) = some (r, w')) :
    Definite reflect (reflectHost.C w'.s.h) := by
  have hs := reflect_setting (sorted_ok refLapack_ok)
  have h0 : SStart reflectHost (pairCfg (sorted refLapack)) (pairStart fun _ => tieX).s := ⟨rfl, (tie_start refLapack).2⟩
  have hv : IsPhase evenOdd := by
    intro k i
    show ‖(![1, -1] : Fin 2 → ℂ) i‖ = 1
    fin_cases i <;> simp
  refine C113_definite (linear_turned (reflect_system refLapack).unitary reflectH_comm) (reflect_system _) hs
    (sorted_total refLapack_total) (sorted_sorted refLapack) hv ⟨hv, ?_, rfl, rfl⟩ h0
    (meetsSimple_frozen hs (sorted_total refLapack_total) rfl
      (fun _ => ⟨by simp [pairCfg, tieCfg], by simp [pairCfg, tieCfg, Res.Clean]⟩) hm hr _ h0 reflect_distinct) hrun
  funext k
  show (diagonal ![1, -1, 1] : Mat 3 3) * tieX = tieX * (diagonal ![1, -1] : Mat 2 2)
  ext i j
  rw [mul_diagonal, diagonal_mul]
  fin_cases i <;> fin_cases j <;> simp [tieX]

/-- orbitals without the second plane wave never get it -/
example (X : Mat 3 2) (hX : ∀ j, X 1 j = 0) (prm : NlcgParams ℝ) (fuel rank : ℕ) (r : Res (Info ℝ))
    (w' : NState ℝ (SState (LState tieN tieB) tieN tieB))
    (hrun : solve reflectHost (pairCfg refLapack) prm fuel rank (pairStart fun _ => X) = some (r, w')) (j : Fin 2) :
    (reflectHost.C w'.s.h 0 : Mat 3 2) 1 j = 0 := by
  have h := (C113_invariant (linear_symmetric (reflect_system refLapack).unitary reflectH_comm) (reflect_system refLapack)
    (fun _ => one_ne_zero) ⟨?_, ?_, rfl, rfl⟩ rfl hrun).1 0
  · replace h : (diagonal ![1, -1, 1] : Mat 3 3) * (reflectHost.C w'.s.h 0 : Mat 3 2) = reflectHost.C w'.s.h 0 := h
    have h1 := congrFun (congrFun h 1) j
    rw [diagonal_mul] at h1
    simp only [cons_val_one, cons_val_zero] at h1
    have h2 : (2 : ℂ) * (reflectHost.C w'.s.h 0 : Mat 3 2) 1 j = 0 := by linear_combination -h1
    simpa using h2
  · funext k
    show X = (diagonal ![1, -1, 1] : Mat 3 3) * X
    ext i j
    rw [diagonal_mul]
    fin_cases i <;> simp [hX]
  · funext k
    show (0 : Mat 3 2) = (diagonal ![1, -1, 1] : Mat 3 3) * (0 : Mat 3 2)
    rw [Matrix.mul_zero]

end Nlcg
