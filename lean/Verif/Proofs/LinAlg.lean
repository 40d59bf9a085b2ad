import Verif.Spec.LinAlg
import Mathlib.Analysis.Matrix.Spectrum
import Mathlib.LinearAlgebra.Matrix.NonsingularInverse

/-!
# Helper lemmas: linear algebra
-/

namespace Nlcg
open Matrix Spec ComplexOrder

variable {N B m n : ℕ}

theorem innerhTr_eq (X Y : Mat m n) : innerhTr X Y = (Yᴴ * X).trace := by
  rw [innerhTr, Finset.sum_comm, trace]
  refine Finset.sum_congr rfl fun j _ => ?_
  rw [diag_apply, mul_apply]
  exact Finset.sum_congr rfl fun i _ => by rw [conjTranspose_apply, mul_comm]

theorem rdot_comm (A C : Mat m n) : rdot A C = rdot C A := by
  rw [rdot, rdot, ← conjTranspose_conjTranspose (Aᴴ * C), trace_conjTranspose, conjTranspose_mul,
    conjTranspose_conjTranspose]
  exact Complex.conj_re _

theorem innerhTr_re (X Y : Mat m n) : (innerhTr X Y).re = rdot X Y := by
  rw [innerhTr_eq, rdot_comm, rdot]

theorem rdot_add (A C D : Mat m n) : rdot A (C + D) = rdot A C + rdot A D := by
  rw [rdot, Matrix.mul_add, trace_add, Complex.add_re]; rfl

theorem rdot_smul (c : ℝ) (A C : Mat m n) : rdot A ((c : ℂ) • C) = c * rdot A C := by
  rw [rdot, Matrix.mul_smul, trace_smul, smul_eq_mul, Complex.re_ofReal_mul]; rfl

theorem rdot_smul_left (c : ℝ) (A C : Mat m n) : rdot ((c : ℂ) • A) C = c * rdot A C := by
  rw [rdot_comm, rdot_smul, rdot_comm]

theorem rdot_add_left (A C D : Mat m n) : rdot (A + C) D = rdot A D + rdot C D := by
  rw [rdot_comm, rdot_add, rdot_comm A, rdot_comm C]

theorem rdot_sum (A C : Mat m n) : rdot A C = ∑ j, ∑ i, (star (A i j) * C i j).re := by
  rw [rdot, trace, Complex.re_sum]
  refine Finset.sum_congr rfl fun j _ => ?_
  rw [diag_apply, mul_apply, Complex.re_sum]
  rfl

/-- `A c` has no component along a tangent direction when `A^H Z = 0` -/
theorem rdot_mul_left {l : ℕ} (A : Mat m l) (c : Mat l n) (Z : Mat m n) (h : Aᴴ * Z = 0) :
    rdot (A * c) Z = 0 := by
  rw [rdot, conjTranspose_mul, Matrix.mul_assoc, h, Matrix.mul_zero, trace_zero, Complex.zero_re]

theorem scaleCols_eq (A : Mat m n) (x : Fin n → ℝ) (c : ℝ) :
    scaleCols A x c = (c : ℂ) • (A * diagonal fun j => (x j : ℂ)) := by
  ext i j
  rw [scaleCols, Matrix.smul_apply, mul_diagonal, smul_eq_mul]; ring

theorem makeDiag_eq (x : Fin n → ℝ) : makeDiag x = diagonal fun j => (x j : ℂ) := by
  ext i j
  rw [makeDiag, diagonal_apply]

/-- a left inverse makes `mulVec` injective -/
theorem mulVec_injective_of_left {A : Mat m n} {C : Mat n m} (h : C * A = 1) :
    Function.Injective A.mulVec := fun x y hxy => by
  have := congrArg (C.mulVec) hxy
  simpa [mulVec_mulVec, h] using this

theorem sx_injective {S : Mat N N} {X : Mat N B} (h : SOrtho S X) :
    Function.Injective (S * X).mulVec := mulVec_injective_of_left h

theorem _root_.Nlcg.Spec.LapackOk.solveSym {la : Lapack} (hla : LapackOk la) {n m : ℕ} (A : Mat n n)
    (C : Mat n m) (h : A.PosDef) : A * la.solve A C = C := hla.solve A C h

/-- result of a successful eigensolver call -/
theorem _root_.Nlcg.Spec.LapackOk.eigh {la : Lapack} (hla : LapackOk la) {n : ℕ} {A : Mat n n}
    {w : Fin n → ℝ} {U : Mat n n} (hA : A.IsHermitian) (h : la.eigh A = .ok (w, U)) :
    Uᴴ * U = 1 ∧ A * U = U * diagonal fun i => (w i : ℂ) := by
  rw [Lapack.eigh] at h
  by_cases hi : (la.heevd A).2 = 0
  · have := hla.eigen A hA hi
    simp only [hi, ne_eq, not_true_eq_false, if_false, Res.ok.injEq] at h
    rw [h] at this
    exact this
  · simp [hi] at h

theorem eigh_total {la : Lapack} (ht : EighTotal la) {n : ℕ} {A : Mat n n} (hA : A.IsHermitian) :
    ∃ w U, la.eigh A = .ok (w, U) :=
  ⟨(la.heevd A).1.1, (la.heevd A).1.2, by rw [Lapack.eigh]; simp [ht A hA]⟩

/-- eigenvalues and eigenvectors from the spectral theorem -/
noncomputable def refEigh {n : ℕ} (A : Mat n n) : ((Fin n → ℝ) × Mat n n) × Int := by
  classical
  exact if h : A.IsHermitian then ((h.eigenvalues, h.eigenvectorUnitary.1), 0) else ((0, 0), 1)

theorem refEigh_eq {n : ℕ} (A : Mat n n) (h : A.IsHermitian) :
    refEigh A = ((h.eigenvalues, h.eigenvectorUnitary.1), 0) := by
  rw [refEigh, dif_pos h]

/-- a LAPACK that keeps its contract (the "factor" is the matrix itself) -/
noncomputable def refLapack : Lapack where
  potrf A := by classical exact (A, if A.PosDef then 0 else 1)
  potrs A C := (A⁻¹ * C, 0)
  heevd A := refEigh A

theorem refLapack_total : EighTotal refLapack := fun A h => by
  show (refEigh A).2 = 0
  rw [refEigh_eq A h]

theorem refLapack_ok : LapackOk refLapack where
  chol A := by
    classical
    show (if A.PosDef then (0 : Int) else 1) = 0 ↔ A.PosDef
    split_ifs with h <;> simp [h]
  solve A C h := by
    show A * (A⁻¹ * C) = C
    rw [← Matrix.mul_assoc, mul_nonsing_inv _ ((isUnit_iff_isUnit_det _).1 h.isUnit), Matrix.one_mul]
  eigen A hA _ := by
    show (refEigh A).1.2ᴴ * (refEigh A).1.2 = 1 ∧ A * (refEigh A).1.2
      = (refEigh A).1.2 * diagonal fun i => ((refEigh A).1.1 i : ℂ)
    rw [refEigh_eq A hA]
    have hu : (hA.eigenvectorUnitary.1)ᴴ * hA.eigenvectorUnitary.1 = 1 :=
      Unitary.coe_star_mul_self hA.eigenvectorUnitary
    refine ⟨hu, ?_⟩
    have hs := hA.spectral_theorem
    rw [Unitary.conjStarAlgAut_apply] at hs
    refine (congrArg (· * hA.eigenvectorUnitary.1) hs).trans ?_
    refine (Matrix.mul_assoc _ _ _).trans ?_
    exact (congrArg (_ * ·) hu).trans (Matrix.mul_one _)

end Nlcg
