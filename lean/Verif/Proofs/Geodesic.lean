import Verif.Proofs.Descent

/-!
# Helper lemmas: Loewdin orthonormalisation and geodesic
-/

namespace Nlcg
open Matrix Spec ComplexOrder

variable {N B : ℕ}

/-- real numbers as a diagonal matrix -/
abbrev rdiag (w : Fin B → ℝ) : Mat B B := diagonal fun i => (w i : ℂ)

theorem rdiag_mul (v w : Fin B → ℝ) : rdiag v * rdiag w = rdiag fun i => v i * w i := by
  rw [rdiag, rdiag, diagonal_mul_diagonal]; simp

theorem rdiag_conj (w : Fin B → ℝ) : (rdiag w)ᴴ = rdiag w := by
  rw [rdiag, diagonal_conjTranspose]
  congr 1
  exact funext fun i => Complex.conj_ofReal _

/-- an eigenvalue is the value of the quadratic form at its normalised eigenvector -/
theorem eig_eq {A U : Mat B B} {w : Fin B → ℝ} (hu : Uᴴ * U = 1) (ha : A * U = U * rdiag w)
    (i : Fin B) : ((Uᴴ * (A * U)) i i) = (w i : ℂ) := by
  rw [ha, ← Matrix.mul_assoc, hu, Matrix.one_mul]
  exact diagonal_apply_eq _ _

theorem eig_pos {A U : Mat B B} {w : Fin B → ℝ} (hA : A.PosDef) (hu : Uᴴ * U = 1)
    (ha : A * U = U * rdiag w) (i : Fin B) : 0 < w i := by
  have h := (hA.conjTranspose_mul_mul_same (mulVec_injective_of_left hu)).diag_pos (i := i)
  rw [Matrix.mul_assoc, eig_eq hu ha] at h
  exact Complex.zero_lt_real.1 h

/-- the matrix `U w^{-1/2} U^H` of the code -/
noncomputable def invSqrt (w : Fin B → ℝ) (U : Mat B B) : Mat B B :=
  U * rdiag (loewdinAux w) * Uᴴ

theorem invSqrt_conj (w : Fin B → ℝ) (U : Mat B B) : (invSqrt w U)ᴴ = invSqrt w U := by
  rw [invSqrt, conjTranspose_mul, conjTranspose_mul, rdiag_conj, conjTranspose_conjTranspose,
    Matrix.mul_assoc]

theorem loewdinAux_sq {w : Fin B → ℝ} (hw : ∀ i, 0 < w i) (i : Fin B) :
    loewdinAux w i * (w i * loewdinAux w i) = 1 := by
  have h := Real.sqrt_pos.2 (hw i)
  have h2 := Real.mul_self_sqrt (hw i).le
  rw [loewdinAux]
  field_simp
  rw [sq]; exact h2.symm

theorem invSqrt_sandwich {A U : Mat B B} {w : Fin B → ℝ} (hu : Uᴴ * U = 1)
    (ha : A * U = U * rdiag w) (hw : ∀ i, 0 < w i) : invSqrt w U * (A * invSqrt w U) = 1 := by
  have huu : U * Uᴴ = 1 := mul_eq_one_comm.1 hu
  have h1 : A * invSqrt w U = U * rdiag (fun i => w i * loewdinAux w i) * Uᴴ := by
    rw [invSqrt, ← Matrix.mul_assoc, ← Matrix.mul_assoc, ha, Matrix.mul_assoc U, rdiag_mul]
  rw [h1, invSqrt]
  calc U * rdiag (loewdinAux w) * Uᴴ * (U * rdiag (fun i => w i * loewdinAux w i) * Uᴴ)
      = U * (rdiag (loewdinAux w) * ((Uᴴ * U) * rdiag (fun i => w i * loewdinAux w i))) * Uᴴ := by
        simp only [Matrix.mul_assoc]
    _ = 1 := by
        rw [hu, Matrix.one_mul, rdiag_mul]
        simp only [loewdinAux_sq hw]
        rw [rdiag]
        simp only [Complex.ofReal_one, diagonal_one, Matrix.mul_one]
        exact huu

/-- inversion of a Loewdin call -/
theorem loewdin_inv {la : Lapack} {X SX Y : Mat N B} (h : loewdin la X SX = .ok Y) :
    ∃ w U, la.eigh (Xᴴ * SX) = .ok (w, U) ∧ Y = X * invSqrt w U := by
  rw [loewdin] at h
  simp only [innerM_one] at h
  obtain ⟨⟨w, U⟩, h1, h2⟩ := Res.bind_eq_ok.1 h
  refine ⟨w, U, h1, ?_⟩
  simp only [Res.pure_eq, Res.ok.injEq] at h2
  rw [← h2, transformM, outerM, scaleCols_eq, invSqrt, Complex.ofReal_one, one_smul]

theorem loewdin_ok {la : Lapack} {X SX : Mat N B} {w : Fin B → ℝ} {U : Mat B B}
    (h : la.eigh (Xᴴ * SX) = .ok (w, U)) : ∃ Y, loewdin la X SX = .ok Y := by
  rw [loewdin]
  simp only [innerM_one, h, Res.bind_ok, Res.pure_eq]
  exact ⟨_, rfl⟩

theorem sortho_mul {S : Mat N N} {X : Mat N B} (R : Mat B B) :
    (X * R)ᴴ * (S * (X * R)) = Rᴴ * (Xᴴ * (S * X) * R) := by
  rw [conjTranspose_mul]; simp only [Matrix.mul_assoc]

/-- a unitary rotation keeps S-orthonormality -/
theorem sortho_unitary {S : Mat N N} {X : Mat N B} {U : Mat B B} (h : SOrtho S X)
    (hu : Uᴴ * U = 1) : SOrtho S (X * U) := by
  rw [SOrtho, sortho_mul, show Xᴴ * (S * X) = 1 from h, Matrix.one_mul, hu]

/-- overlap of the moved orbitals -/
theorem moved_overlap {S : Mat N N} (hS : S.IsHermitian) {X Z : Mat N B} (ho : SOrtho S X)
    (hz : Tangent S X Z) (t : ℝ) :
    (X + (t : ℂ) • Z)ᴴ * (S * (X + (t : ℂ) • Z)) = 1 + ((t ^ 2 : ℝ) : ℂ) • (Zᴴ * (S * Z)) := by
  have h1 : Xᴴ * (S * Z) = 0 := by
    rw [← Matrix.mul_assoc, ← hS.eq, ← conjTranspose_mul]; exact hz
  have h2 : Zᴴ * (S * X) = 0 := by
    rw [← conjTranspose_conjTranspose (S * X), ← conjTranspose_mul,
      show (S * X)ᴴ * Z = 0 from hz, conjTranspose_zero]
  rw [conjTranspose_add, conjTranspose_smul, RCLike.star_def, Complex.conj_ofReal]
  simp only [Matrix.mul_add, Matrix.add_mul, Matrix.mul_smul, Matrix.smul_mul, h1, h2, smul_zero,
    show Xᴴ * (S * X) = 1 from ho, add_zero, zero_add, smul_smul]
  push_cast
  rw [sq]

theorem moved_posDef {S : Mat N N} (hS : S.PosSemidef) {X Z : Mat N B} (ho : SOrtho S X)
    (hz : Tangent S X Z) (t : ℝ) : ((X + (t : ℂ) • Z)ᴴ * (S * (X + (t : ℂ) • Z))).PosDef := by
  rw [moved_overlap hS.isHermitian ho hz]
  refine PosDef.one.add_posSemidef ?_
  rw [← Matrix.mul_assoc]
  exact (hS.conjTranspose_mul_mul_same Z).smul (Complex.zero_le_real.2 (sq_nonneg t))

theorem moved_eig {S : Mat N N} (hS : S.PosSemidef) {X Z : Mat N B} (ho : SOrtho S X)
    (hz : Tangent S X Z) (t : ℝ) {w : Fin B → ℝ} {U : Mat B B} (hu : Uᴴ * U = 1)
    (ha : ((X + (t : ℂ) • Z)ᴴ * (S * (X + (t : ℂ) • Z))) * U = U * rdiag w) (i : Fin B) :
    1 ≤ w i := by
  have h := eig_eq hu ha i
  rw [moved_overlap hS.isHermitian ho hz, Matrix.add_mul, Matrix.one_mul, Matrix.mul_add, hu,
    Matrix.add_apply, one_apply_eq, Matrix.smul_mul, Matrix.mul_smul, Matrix.smul_apply] at h
  have hn : 0 ≤ (Uᴴ * (Zᴴ * (S * Z) * U)) i i := by
    have := (hS.conjTranspose_mul_mul_same (Z * U)).diag_nonneg (i := i)
    rw [conjTranspose_mul] at this
    simpa only [Matrix.mul_assoc] using this
  have hre := congrArg Complex.re h
  rw [Complex.add_re, Complex.one_re, smul_eq_mul, Complex.re_ofReal_mul, Complex.ofReal_re] at hre
  have := mul_nonneg (sq_nonneg t) (Complex.le_def.1 hn).1
  linarith

theorem addM_one {m n : ℕ} (A C : Mat m n) (t : ℝ) : addM A C (t : ℂ) = A + (t : ℂ) • C := by
  rw [addM, one_smul]

/-- inversion of a step -/
theorem geodesicUs_inv {la : Lapack} {X : Mat N B} {eta : Mat B B} {zx : Mat N B} {zeta : Mat B B}
    {S : Mat N N} {t : ℝ} {o : GeoOut N B} (h : geodesicUs la X eta zx zeta S t = .ok o) :
    la.eigh (eta + (t : ℂ) • zeta) = .ok (o.ek, o.ul) ∧
    ∃ Y, loewdin la (X + (t : ℂ) • zx) (S * (X + (t : ℂ) • zx)) = .ok Y ∧ o.X = Y * o.ul := by
  rw [geodesicUs] at h
  simp only [advanceEta, advanceX, addM_one, transformM] at h
  obtain ⟨⟨w, U⟩, h1, h2⟩ := Res.bind_eq_ok.1 h
  obtain ⟨x, h3, h4⟩ := Res.bind_eq_ok.1 h2
  obtain ⟨Y, h5, h6⟩ := Res.bind_eq_ok.1 h3
  simp only [Res.pure_eq, Res.ok.injEq] at h4 h6
  subst h4 h6
  exact ⟨h1, Y, h5, rfl⟩

/-- Loewdin gives S-orthonormal columns -/
theorem loewdin_sortho {la : Lapack} (hla : LapackOk la) {S : Mat N N} {X Y : Mat N B}
    (hM : (Xᴴ * (S * X)).PosDef) (h : loewdin la X (S * X) = .ok Y) : SOrtho S Y := by
  obtain ⟨w, U, h1, rfl⟩ := loewdin_inv h
  obtain ⟨hu, ha⟩ := hla.eigh hM.isHermitian h1
  rw [SOrtho, sortho_mul, invSqrt_conj]
  exact invSqrt_sandwich hu ha (eig_pos hM hu ha)

/-- identity on orthonormal input -/
theorem loewdin_id {la : Lapack} (hla : LapackOk la) {S : Mat N N} {X Y : Mat N B}
    (ho : SOrtho S X) (h : loewdin la X (S * X) = .ok Y) : Y = X := by
  obtain ⟨w, U, h1, rfl⟩ := loewdin_inv h
  rw [show Xᴴ * (S * X) = 1 from ho] at h1
  obtain ⟨hu, ha⟩ := hla.eigh isHermitian_one h1
  have hw : ∀ i, w i = 1 := fun i => by
    have := eig_eq hu ha i
    rw [Matrix.one_mul, hu, one_apply_eq] at this
    exact_mod_cast this.symm
  have : invSqrt w U = 1 := by
    rw [invSqrt, show loewdinAux w = fun _ => 1 from funext fun i => by simp [loewdinAux, hw]]
    simp only [rdiag, Complex.ofReal_one, diagonal_one, Matrix.mul_one]
    exact mul_eq_one_comm.1 hu
  rw [this, Matrix.mul_one]

end Nlcg
