import Verif.Proofs.Geodesic
import Mathlib.LinearAlgebra.Matrix.ToLin

/-!
# C19, C20, C46: moving along a direction

One k-point: `X` orbitals, `S` overlap operator, `eta` pseudo-Hamiltonian, `zx`, `zeta` direction,
`t` step length. `C19` for whole runs is in `Props/Solver.lean`.
-/

namespace Nlcg
open Matrix Spec ComplexOrder

variable {N B : ℕ}

/-! ## C46 -/

/-- **C46.** The result `Y` of Loewdin orthonormalisation satisfies `Y^H S Y = 1`. -/
theorem C46_orthonormal {la : Lapack} (hla : LapackOk la) {S : Mat N N} (hS : S.PosDef)
    {X Y : Mat N B} (hX : Function.Injective X.mulVec) (h : loewdin la X (S * X) = .ok Y) :
    Yᴴ * (S * Y) = 1 :=
  loewdin_sortho hla (by rw [← Matrix.mul_assoc]; exact hS.conjTranspose_mul_mul_same hX) h

/-- **C46.** It spans the same space. -/
theorem C46_same_span {la : Lapack} (hla : LapackOk la) {S : Mat N N} (hS : S.PosDef)
    {X Y : Mat N B} (hX : Function.Injective X.mulVec) (h : loewdin la X (S * X) = .ok Y) :
    LinearMap.range Y.mulVecLin = LinearMap.range X.mulVecLin := by
  have hM : (Xᴴ * (S * X)).PosDef := by
    rw [← Matrix.mul_assoc]; exact hS.conjTranspose_mul_mul_same hX
  obtain ⟨w, U, h1, rfl⟩ := loewdin_inv h
  obtain ⟨hu, ha⟩ := hla.eigh hM.isHermitian h1
  have hr := invSqrt_sandwich hu ha (eig_pos hM hu ha)
  have hr' : invSqrt w U * (Xᴴ * (S * X) * invSqrt w U) = 1 := hr
  apply le_antisymm
  · rintro _ ⟨v, rfl⟩
    exact ⟨invSqrt w U *ᵥ v, by simp only [mulVecLin_apply, mulVec_mulVec]⟩
  · rintro _ ⟨v, rfl⟩
    exact ⟨(Xᴴ * (S * X) * invSqrt w U) *ᵥ v, by
      simp only [mulVecLin_apply, mulVec_mulVec]
      rw [Matrix.mul_assoc X, hr', Matrix.mul_one]⟩

/-- **C46.** It is the identity on orthonormal input. -/
theorem C46_identity {la : Lapack} (hla : LapackOk la) {S : Mat N N} {X Y : Mat N B}
    (ho : SOrtho S X) (h : loewdin la X (S * X) = .ok Y) : Y = X := loewdin_id hla ho h

/-- **C46.** It succeeds whenever the eigensolver converges, and no eigenvalue it divides by is zero
or negative. -/
theorem C46_defined {la : Lapack} (hla : LapackOk la) (ht : EighTotal la) {S : Mat N N}
    (hS : S.PosDef) {X : Mat N B} (hX : Function.Injective X.mulVec) :
    (∃ Y, loewdin la X (S * X) = .ok Y) ∧
    ∀ w U, la.eigh (Xᴴ * (S * X)) = .ok (w, U) → ∀ i, 0 < w i := by
  have hM : (Xᴴ * (S * X)).PosDef := by
    rw [← Matrix.mul_assoc]; exact hS.conjTranspose_mul_mul_same hX
  obtain ⟨w, U, h⟩ := eigh_total ht hM.isHermitian
  refine ⟨loewdin_ok h, fun w U h i => ?_⟩
  obtain ⟨hu, ha⟩ := hla.eigh hM.isHermitian h
  exact eig_pos hM hu ha i

/-- two basis functions, one band, not normalised -/
example : ∃ Y, LapackOk refLapack ∧ (1 : Mat 2 2).PosDef ∧
    Function.Injective (!![(2 : ℂ); 1]).mulVec ∧
    loewdin refLapack (!![(2 : ℂ); 1]) ((1 : Mat 2 2) * !![(2 : ℂ); 1]) = .ok Y := by
  have hi : Function.Injective (!![(2 : ℂ); 1]).mulVec :=
    mulVec_injective_of_left (C := !![0, 1]) (by ext i j; fin_cases i; fin_cases j; simp [mul_apply])
  obtain ⟨Y, hY⟩ := (C46_defined refLapack_ok refLapack_total PosDef.one hi).1
  exact ⟨Y, refLapack_ok, PosDef.one, hi, hY⟩

/-! ## C19 -/

/-- **C19 (one step).** From S-orthonormal orbitals along a tangent direction, for every step
length, the new orbitals are S-orthonormal. -/
theorem C19_step_orthonormal {la : Lapack} (hla : LapackOk la) {S : Mat N N} (hS : S.PosSemidef)
    {X zx : Mat N B} {eta zeta : Mat B B} (ho : SOrtho S X) (hz : Tangent S X zx)
    (he : eta.IsHermitian) (hze : zeta.IsHermitian) (t : ℝ) {o : GeoOut N B}
    (h : geodesicUs la X eta zx zeta S t = .ok o) : SOrtho S o.X := by
  obtain ⟨h1, Y, h2, h3⟩ := geodesicUs_inv h
  have hher : (eta + (t : ℂ) • zeta).IsHermitian := by
    rw [← addM_one]; exact addM_hermitian he hze t 1
  rw [h3]
  exact sortho_unitary (loewdin_sortho hla (moved_posDef hS ho hz t) h2) (hla.eigh hher h1).1

/-- **C19 (one step).** The eigenvalues whose square roots the step divides by are at least 1. -/
theorem C19_step_no_division_by_zero {la : Lapack} (hla : LapackOk la) {S : Mat N N}
    (hS : S.PosSemidef) {X zx : Mat N B} (ho : SOrtho S X) (hz : Tangent S X zx) (t : ℝ)
    {w : Fin B → ℝ} {U : Mat B B}
    (h : la.eigh (innerM (addM X zx (t : ℂ)) (S * addM X zx (t : ℂ))) = .ok (w, U)) (i : Fin B) :
    1 ≤ w i := by
  rw [innerM_one, addM_one] at h
  obtain ⟨hu, ha⟩ := hla.eigh (moved_posDef hS ho hz t).isHermitian h
  exact moved_eig hS ho hz t hu ha i

/-- **C19 (one step).** A step never fails if the eigensolver converges. -/
theorem C19_step_defined {la : Lapack} (ht : EighTotal la) {S : Mat N N} (hS : S.PosSemidef)
    {X zx : Mat N B} {eta zeta : Mat B B} (ho : SOrtho S X) (hz : Tangent S X zx)
    (he : eta.IsHermitian) (hze : zeta.IsHermitian) (t : ℝ) :
    ∃ o, geodesicUs la X eta zx zeta S t = .ok o := by
  have hher : (eta + (t : ℂ) • zeta).IsHermitian := by
    rw [← addM_one]; exact addM_hermitian he hze t 1
  obtain ⟨w, U, h1⟩ := eigh_total ht hher
  obtain ⟨w', U', h2⟩ := eigh_total ht (moved_posDef hS ho hz t).isHermitian
  obtain ⟨Y, h3⟩ := loewdin_ok h2
  refine ⟨{ ek := w, ul := U, X := Y * U }, ?_⟩
  rw [geodesicUs]
  simp only [advanceEta, advanceX, addM_one, h1, h3, Res.bind_ok, Res.pure_eq, transformM]

/-- the hypotheses hold for a direction that really moves -/
example : (1 : Mat 2 2).PosSemidef ∧ SOrtho (1 : Mat 2 2) !![(1 : ℂ); 0] ∧
    Tangent (1 : Mat 2 2) !![(1 : ℂ); 0] !![(0 : ℂ); 3] ∧ (!![(1 : ℂ)]).IsHermitian := by
  refine ⟨PosSemidef.one, ?_, ?_, ?_⟩
  · ext i j; fin_cases i; fin_cases j; simp [mul_apply]
  · ext i j; fin_cases i; fin_cases j; simp [mul_apply]
  · ext i j; fin_cases i; fin_cases j; simp

/-! ## C20 -/

/-- **C20.** A zero step returns the same orbitals rotated by a unitary `u`, with the eigenvalues of
the current pseudo-Hamiltonian. -/
theorem C20_zero_step {la : Lapack} (hla : LapackOk la) {S : Mat N N} {X zx : Mat N B}
    {eta zeta : Mat B B} (ho : SOrtho S X) (he : eta.IsHermitian) {o : GeoOut N B}
    (h : geodesicUs la X eta zx zeta S 0 = .ok o) :
    o.X = X * o.ul ∧ o.ulᴴ * o.ul = 1 ∧ eta * o.ul = o.ul * diagonal fun i => (o.ek i : ℂ) := by
  obtain ⟨h1, Y, h2, h3⟩ := geodesicUs_inv h
  rw [Complex.ofReal_zero, zero_smul, add_zero] at h1 h2
  rw [loewdin_id hla ho h2] at h3
  exact ⟨h3, hla.eigh he h1⟩

example : ∃ o, geodesicUs refLapack !![(1 : ℂ); 0] !![(3 : ℂ)] !![(0 : ℂ); 3] !![(1 : ℂ)] 1 0 = .ok o :=
  C19_step_defined refLapack_total PosSemidef.one
    (by ext i j; fin_cases i; fin_cases j; simp [mul_apply])
    (by ext i j; fin_cases i; fin_cases j; simp [mul_apply])
    (by ext i j; fin_cases i; fin_cases j; simp)
    (by ext i j; fin_cases i; fin_cases j; simp) 0

end Nlcg
