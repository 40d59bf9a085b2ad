import Verif.Spec.Gauge
import Verif.Proofs.Descent
import Verif.Proofs.Geodesic
import Mathlib.LinearAlgebra.Matrix.Charpoly.Basic
import Mathlib.LinearAlgebra.Matrix.NonsingularInverse
import Mathlib.Data.List.Sort
import Mathlib.Data.Fin.Tuple.Sort

/-! Phases, one k-point. -/

namespace Nlcg
open Matrix Spec ComplexOrder

variable {N B : ℕ}

/-- a square matrix with `V^H V = 1` -/
def Uni (V : Mat B B) : Prop := Vᴴ * V = 1

theorem Uni.left {V : Mat B B} (h : Uni V) : Vᴴ * V = 1 := h
theorem Uni.right {V : Mat B B} (h : Uni V) : V * Vᴴ = 1 := mul_eq_one_comm.1 h

theorem uni_diagonal {v : Fin B → ℂ} (hv : ∀ i, ‖v i‖ = 1) : Uni (diagonal v) := by
  rw [Uni, diagonal_conjTranspose, diagonal_mul_diagonal, ← diagonal_one]
  congr 1
  funext i
  have := Complex.normSq_eq_conj_mul_self (z := v i)
  rw [Pi.star_apply, Complex.star_def, ← this, Complex.normSq_eq_norm_sq, hv i]
  simp

section
variable {V : Mat B B} (hV : Uni V)
include hV

theorem uni_cancel {m : ℕ} (A : Mat B m) : Vᴴ * (V * A) = A := by
  rw [← Matrix.mul_assoc, hV.left, Matrix.one_mul]

theorem uni_cancel' {m : ℕ} (A : Mat B m) : V * (Vᴴ * A) = A := by
  rw [← Matrix.mul_assoc, hV.right, Matrix.one_mul]

theorem posDef_uni {A : Mat B B} (hA : A.PosDef) : (Vᴴ * A * V).PosDef :=
  hA.conjTranspose_mul_mul_same (mulVec_injective_of_left hV)

theorem solve_uni {la la' : Lapack} (hla : LapackOk la) (hla' : LapackOk la') {A : Mat B B} (hA : A.PosDef) (C : Mat B B) :
    la'.solve (Vᴴ * A * V) (Vᴴ * C * V) = Vᴴ * la.solve A C * V := by
  have hA' := posDef_uni hV hA
  have h1 := hla'.solveSym (Vᴴ * A * V) (Vᴴ * C * V) hA'
  have h2 : Vᴴ * A * V * (Vᴴ * la.solve A C * V) = Vᴴ * C * V := by
    simp only [Matrix.mul_assoc, uni_cancel' hV]
    rw [← Matrix.mul_assoc A, hla.solveSym A C hA]
  have hu : IsUnit (Vᴴ * A * V).det := (isUnit_iff_isUnit_det _).1 hA'.isUnit
  generalize Vᴴ * A * V = M at *
  have := congrArg (M⁻¹ * ·) (h1.trans h2.symm)
  simpa only [← Matrix.mul_assoc M⁻¹, nonsing_inv_mul _ hu, Matrix.one_mul] using this

theorem lmult_uni {la la' : Lapack} (hla : LapackOk la) (hla' : LapackOk la') {sx hx : Mat N B} {P : Mat N N}
    (hP : P.PosDef) (hs : Function.Injective sx.mulVec) :
    lmult la' (sx * V) (hx * V) P = lmult la sx hx P * V := by
  have hpd : (sxᴴ * (P * sx)).PosDef := by
    rw [← Matrix.mul_assoc]; exact hP.conjTranspose_mul_mul_same hs
  have h := solve_uni hV hla hla' hpd (sxᴴ * (P * hx))
  simp only [lmult, innerM_one, transformM, conjTranspose_mul]
  simp only [Matrix.mul_assoc] at *
  rw [h, uni_cancel' hV]

theorem conjugatex_uni {la la' : Lapack} (hla : LapackOk la) (hla' : LapackOk la') {sx : Mat N B} (z : Mat N B)
    (hs : Function.Injective sx.mulVec) : conjugatex la' (z * V) (sx * V) = conjugatex la z sx * V := by
  have h := solve_uni hV hla hla' (PosDef.conjTranspose_mul_self sx hs) (sxᴴ * z)
  rw [conjugatex_eq, conjugatex_eq, Matrix.sub_mul]
  simp only [conjTranspose_mul, Matrix.mul_assoc] at *
  rw [h, uni_cancel' hV]

omit hV in
theorem precondgxUs_uni (hx : Mat N B) (P : Mat N N) (xll : Mat N B) :
    precondgxUs (hx * V) P (xll * V) = precondgxUs hx P xll * V := by
  rw [precondgxUs_eq, precondgxUs_eq, ← Matrix.sub_mul, Matrix.mul_assoc]

theorem innerhTr_uni (A C : Mat N B) : innerhTr (A * V) (C * V) = innerhTr A C := by
  rw [innerhTr_eq, innerhTr_eq, conjTranspose_mul, Matrix.mul_assoc, trace_mul_comm, Matrix.mul_assoc, Matrix.mul_assoc,
    hV.right, Matrix.mul_one]

theorem innerhTr_uni2 (A C : Mat B B) : innerhTr (Vᴴ * A) (Vᴴ * C) = innerhTr A C := by
  rw [innerhTr_eq, innerhTr_eq, conjTranspose_mul, conjTranspose_conjTranspose, Matrix.mul_assoc, uni_cancel' hV]

theorem sOrtho_uni {S : Mat N N} {X : Mat N B} : SOrtho S (X * V) ↔ SOrtho S X := by
  simp only [SOrtho, conjTranspose_mul, ← Matrix.mul_assoc]
  constructor
  · intro h
    have := congrArg (fun M => V * M * Vᴴ) h
    simp only [Matrix.mul_assoc, hV.right, Matrix.mul_one] at this
    rw [uni_cancel' hV] at this
    simpa only [Matrix.mul_assoc] using this
  · intro h
    rw [Matrix.mul_assoc Vᴴ, Matrix.mul_assoc Vᴴ, h, Matrix.mul_one, hV.left]

theorem herm_uni {A : Mat B B} : (Vᴴ * A * V).IsHermitian ↔ A.IsHermitian := by
  constructor
  · intro h
    have := isHermitian_conjTranspose_mul_mul Vᴴ h
    simpa only [conjTranspose_conjTranspose, Matrix.mul_assoc, hV.right, Matrix.mul_one, uni_cancel' hV] using this
  · exact fun h => isHermitian_conjTranspose_mul_mul V h

theorem rotatex_uni {D : Mat B B} (z : Mat N B) (u : Mat B B) :
    rotatex (z * V) (Vᴴ * u * D) = rotatex z u * D := by
  simp only [rotatex, transformM, Matrix.mul_assoc, uni_cancel' hV]

theorem rotateeta_uni {D : Mat B B} (eta u : Mat B B) :
    rotateeta (Vᴴ * eta * V) (Vᴴ * u * D) = Dᴴ * rotateeta eta u * D := by
  simp only [rotateeta, transformM, innerM_one, conjTranspose_mul, conjTranspose_conjTranspose, Matrix.mul_assoc,
    uni_cancel' hV]

end

section
variable {v : Fin B → ℂ}

theorem scaleCols_phase (A : Mat N B) (x : Fin B → ℝ) (a : ℝ) :
    scaleCols (A * diagonal v) x a = scaleCols A x a * diagonal v := by
  ext i j
  simp only [scaleCols, mul_diagonal]
  ring

theorem gradx_phase (hx : Mat N B) (f : Fin B → ℝ) (xll : Mat N B) (wk : ℝ) :
    gradx (hx * diagonal v) f (xll * diagonal v) wk = gradx hx f xll wk * diagonal v := by
  simp only [gradx, scaleCols_phase, addM, Matrix.add_mul, Matrix.smul_mul]

theorem phase_apply (A : Mat B B) (i j : Fin B) :
    ((diagonal v)ᴴ * A * diagonal v) i j = star (v i) * A i j * v j := by
  rw [mul_diagonal, diagonal_conjTranspose, diagonal_mul, Pi.star_apply]

theorem makeDiag_phase (hv : ∀ i, star (v i) * v i = 1) (e : Fin B → ℝ) :
    (diagonal v)ᴴ * makeDiag e * diagonal v = makeDiag e := by
  ext i j
  rw [phase_apply]
  by_cases h : i = j
  · subst h
    rw [mul_right_comm, hv, one_mul]
  · simp [makeDiag, h]

theorem gEta_phase (hv : ∀ i, star (v i) * v i = 1) (sf : SmearFns ℝ) (T : ℝ) (hij : Mat B B) (mu wk : ℝ)
    (ek fn : Fin B → ℝ) (dmu dF mo : ℝ) :
    gEta sf T ((diagonal v)ᴴ * hij * diagonal v) mu wk ek fn dmu dF mo
      = (diagonal v)ᴴ * gEta sf T hij mu wk ek fn dmu dF mo * diagonal v := by
  ext i j
  rw [phase_apply]
  have h0 : ∀ x : ℂ, star (v i) * x * v i = x := fun x => by rw [mul_right_comm, hv, one_mul]
  by_cases h : i = j
  · subst h
    simp only [gEta, phase_apply, h0]
  · simp only [gEta, phase_apply, h, if_false]
    split_ifs
    · ring
    · ring

theorem deltaEta_phase (hv : ∀ i, star (v i) * v i = 1) (kappa : ℝ) (hij : Mat B B) (ek : Fin B → ℝ) (wk : ℝ) :
    deltaEta kappa ((diagonal v)ᴴ * hij * diagonal v) ek wk
      = (diagonal v)ᴴ * deltaEta kappa hij ek wk * diagonal v := by
  ext i j
  rw [phase_apply]
  have h0 : ∀ x : ℂ, star (v i) * x * v i = x := fun x => by rw [mul_right_comm, hv, one_mul]
  by_cases h : i = j
  · subst h
    simp only [deltaEta, phase_apply, h0]
  · simp only [deltaEta, phase_apply, h, if_false]
    ring

theorem phase_star (hv : ∀ i, ‖v i‖ = 1) (i : Fin B) : star (v i) * v i = 1 := by
  have := congrFun (congrFun (uni_diagonal hv) i) i
  rwa [diagonal_conjTranspose, diagonal_mul_diagonal, diagonal_apply_eq, one_apply_eq] at this

/-- the direction code in another gauge -/
theorem execSpc_phase {la la' : Lapack} (hla : LapackOk la) (hla' : LapackOk la') (hv : ∀ i, ‖v i‖ = 1) (p : DirParams)
    (dF sumfn : ℝ) (i : KIn N B) (ho : SOrtho i.S i.X) (hP : i.P.PosDef) :
    execSpc la' p dF sumfn { i with X := i.X * diagonal v, hx := i.hx * diagonal v }
      = ⟨(execSpc la p dF sumfn i).fr, (execSpc la p dF sumfn i).gx * diagonal v,
          (diagonal v)ᴴ * (execSpc la p dF sumfn i).geta * diagonal v, (execSpc la p dF sumfn i).dx * diagonal v,
          (diagonal v)ᴴ * (execSpc la p dF sumfn i).deta * diagonal v⟩ := by
  have hV := uni_diagonal hv
  have e1 : i.S * (i.X * diagonal v) = i.S * i.X * diagonal v := (Matrix.mul_assoc _ _ _).symm
  have e2 : innerM (i.X * diagonal v) (i.hx * diagonal v) (i.wk : ℂ)
      = (diagonal v)ᴴ * innerM i.X i.hx (i.wk : ℂ) * diagonal v := by
    simp only [innerM, conjTranspose_mul, Matrix.mul_smul, Matrix.smul_mul, Matrix.mul_assoc]
  simp only [execSpc, e1, e2, lmult_uni hV hla hla' hP (sx_injective ho), gradx_phase, precondgxUs_uni,
    gEta_phase (phase_star hv), deltaEta_phase (phase_star hv), innerhTr_uni hV, innerhTr_uni2 hV]

theorem execConjugate_phase {la la' : Lapack} (hla : LapackOk la) (hla' : LapackOk la') {V : Mat B B} (hV : Uni V)
    (hv : ∀ i, ‖v i‖ = 1) {sx : Mat N B} (hs : Function.Injective sx.mulVec) (z : Mat N B) (zeta ul : Mat B B)
    (gx : Mat N B) (geta : Mat B B) :
    execConjugate la' (sx * diagonal v) (z * V) (Vᴴ * zeta * V) (Vᴴ * ul * diagonal v) (gx * diagonal v)
        ((diagonal v)ᴴ * geta * diagonal v)
      = ((execConjugate la sx z zeta ul gx geta).1, (execConjugate la sx z zeta ul gx geta).2.1 * diagonal v,
          (diagonal v)ᴴ * (execConjugate la sx z zeta ul gx geta).2.2 * diagonal v) := by
  have hD := uni_diagonal hv
  simp only [execConjugate, rotatex_uni hV, rotateeta_uni hV, conjugatex_uni hD hla hla' _ hs, innerhTr_uni hD,
    innerhTr_uni2 hD]

end

/-! ## Eigenvectors -/

section
variable {A : Mat B B} {V U U' : Mat B B} {w w' : Fin B → ℝ}

/-- `Q` relates two diagonal matrices of eigenvalues -/
theorem eig_overlap (hV : Uni V) (hU : Uni U) (h : A * U = U * diagonal fun i => (w i : ℂ))
    (h' : Vᴴ * A * V * U' = U' * diagonal fun i => (w' i : ℂ)) (i j : Fin B) :
    (w i : ℂ) * (Uᴴ * V * U') i j = (Uᴴ * V * U') i j * (w' j : ℂ) := by
  have h1 : (diagonal fun i => (w i : ℂ)) * (Uᴴ * V * U') = Uᴴ * V * U' * diagonal fun i => (w' i : ℂ) := by
    have a : (diagonal fun i => (w i : ℂ)) = Uᴴ * (A * U) := by rw [h, uni_cancel hU]
    rw [a]
    calc Uᴴ * (A * U) * (Uᴴ * V * U') = Uᴴ * A * (U * (Uᴴ * (V * U'))) := by simp only [Matrix.mul_assoc]
      _ = Uᴴ * (V * (Vᴴ * (A * (V * U')))) := by rw [uni_cancel' hU, uni_cancel' hV]; simp only [Matrix.mul_assoc]
      _ = _ := by
        have : Vᴴ * (A * (V * U')) = U' * diagonal fun i => (w' i : ℂ) := by rw [← h']; simp only [Matrix.mul_assoc]
        rw [this]; simp only [Matrix.mul_assoc]
  have := congrFun (congrFun h1 i) j
  rwa [diagonal_mul, mul_diagonal] at this

theorem uni_overlap (hV : Uni V) (hU : Uni U) (hU' : Uni U') : Uni (Uᴴ * V * U') := by
  rw [Uni]
  simp only [conjTranspose_mul, conjTranspose_conjTranspose, Matrix.mul_assoc]
  rw [uni_cancel' hU, uni_cancel hV, hU'.left]

/-- functions of the matrix are the same -/
theorem eig_fun (hV : Uni V) (hU : Uni U) (hU' : Uni U') (h : A * U = U * diagonal fun i => (w i : ℂ))
    (h' : Vᴴ * A * V * U' = U' * diagonal fun i => (w' i : ℂ)) (g : ℝ → ℝ) :
    U' * (diagonal fun i => (g (w' i) : ℂ)) * U'ᴴ = Vᴴ * (U * (diagonal fun i => (g (w i) : ℂ)) * Uᴴ) * V := by
  have hQ := uni_overlap hV hU hU'
  have h1 : (diagonal fun i => (g (w i) : ℂ)) * (Uᴴ * V * U') = Uᴴ * V * U' * diagonal fun i => (g (w' i) : ℂ) := by
    ext i j
    rw [diagonal_mul, mul_diagonal]
    have := eig_overlap hV hU h h' i j
    by_cases hq : (Uᴴ * V * U') i j = 0
    · rw [hq]; simp
    · have : (w i : ℂ) = w' j := mul_right_cancel₀ hq (this.trans (mul_comm _ _))
      rw [Complex.ofReal_inj.1 this, mul_comm]
  have h2 : U' = Vᴴ * (U * (Uᴴ * V * U')) := by
    simp only [Matrix.mul_assoc]
    rw [uni_cancel' hU, uni_cancel hV]
  calc U' * (diagonal fun i => (g (w' i) : ℂ)) * U'ᴴ
      = Vᴴ * (U * ((Uᴴ * V * U') * diagonal fun i => (g (w' i) : ℂ))) * (Vᴴ * (U * (Uᴴ * V * U')))ᴴ := by
        rw [← h2]
        congr 1
        rw [← Matrix.mul_assoc U, ← Matrix.mul_assoc Vᴴ, ← h2]
    _ = Vᴴ * (U * ((diagonal fun i => (g (w i) : ℂ)) * ((Uᴴ * V * U') * ((Uᴴ * V * U')ᴴ * (Uᴴ * V))))) := by
        rw [← h1]
        rw [conjTranspose_mul Vᴴ, conjTranspose_mul U, conjTranspose_conjTranspose]
        simp only [Matrix.mul_assoc]
    _ = _ := by
        rw [uni_cancel' hQ]
        simp only [Matrix.mul_assoc]

/-- eigenvalues are the same up to their order -/
theorem eig_perm (hV : Uni V) (hU : Uni U) (hU' : Uni U') (h : A * U = U * diagonal fun i => (w i : ℂ))
    (h' : Vᴴ * A * V * U' = U' * diagonal fun i => (w' i : ℂ)) : (List.ofFn w').Perm (List.ofFn w) := by
  have e1 : A = U * (diagonal fun i => (w i : ℂ)) * Uᴴ := by
    rw [← h, Matrix.mul_assoc, hU.right, Matrix.mul_one]
  have e2 : Vᴴ * A * V = U' * (diagonal fun i => (w' i : ℂ)) * U'ᴴ := by
    rw [← h', Matrix.mul_assoc (Vᴴ * A * V), hU'.right, Matrix.mul_one]
  have c1 : A.charpoly = (diagonal fun i => (w i : ℂ)).charpoly := by
    rw [e1, Matrix.mul_assoc, charpoly_mul_comm, Matrix.mul_assoc, hU.left, Matrix.mul_one]
  have c2 : (Vᴴ * A * V).charpoly = (diagonal fun i => (w' i : ℂ)).charpoly := by
    rw [e2, Matrix.mul_assoc, charpoly_mul_comm, Matrix.mul_assoc, hU'.left, Matrix.mul_one]
  have c3 : (Vᴴ * A * V).charpoly = A.charpoly := by
    rw [Matrix.mul_assoc, charpoly_mul_comm, Matrix.mul_assoc, hV.right, Matrix.mul_one]
  have c4 := c2.symm.trans (c3.trans c1)
  rw [charpoly_diagonal, charpoly_diagonal] at c4
  have c5 := congrArg Polynomial.roots c4
  have c6 : ∀ x : Fin B → ℝ, (∏ i, (Polynomial.X - Polynomial.C (x i : ℂ))).roots
      = Multiset.map (fun y : ℝ => (y : ℂ)) (List.ofFn x : Multiset ℝ) := fun x => by
    rw [← List.prod_ofFn, ← Multiset.prod_coe, show (List.ofFn fun i => Polynomial.X - Polynomial.C (x i : ℂ) : Multiset _)
      = Multiset.map (fun a => Polynomial.X - Polynomial.C a)
          (Multiset.map (fun y : ℝ => (y : ℂ)) (List.ofFn x : Multiset ℝ)) by
      simp [List.map_ofFn, Function.comp_def], Polynomial.roots_multiset_prod_X_sub_C]
  rw [c6, c6] at c5
  have c7 := Multiset.map_injective Complex.ofReal_injective c5
  exact Multiset.coe_eq_coe.1 c7

/-- sorted eigenvalues are the same -/
theorem eig_values (hV : Uni V) (hU : Uni U) (hU' : Uni U') (h : A * U = U * diagonal fun i => (w i : ℂ))
    (h' : Vᴴ * A * V * U' = U' * diagonal fun i => (w' i : ℂ)) (hw : Monotone w) (hw' : Monotone w') : w' = w :=
  List.ofFn_injective ((eig_perm hV hU hU' h h').eq_of_sortedLE (List.sortedLE_ofFn_iff.2 hw')
    (List.sortedLE_ofFn_iff.2 hw))

/-- eigenvectors of a simple spectrum are unique up to phases -/
theorem eig_vectors (hV : Uni V) (hU : Uni U) (hU' : Uni U') (h : A * U = U * diagonal fun i => (w i : ℂ))
    (h' : Vᴴ * A * V * U' = U' * diagonal fun i => (w i : ℂ)) (hw : Function.Injective w) :
    ∃ u : Fin B → ℂ, (∀ i, ‖u i‖ = 1) ∧ U' = Vᴴ * U * diagonal u := by
  have hQ := uni_overlap hV hU hU'
  have hd : Uᴴ * V * U' = diagonal fun i => (Uᴴ * V * U') i i := by
    ext i j
    by_cases hij : i = j
    · subst hij; rw [diagonal_apply_eq]
    · rw [diagonal_apply_ne _ hij]
      have := eig_overlap hV hU h h' i j
      by_contra hq
      exact hij (hw (Complex.ofReal_inj.1 (mul_right_cancel₀ hq (this.trans (mul_comm _ _)))))
  refine ⟨fun i => (Uᴴ * V * U') i i, fun i => ?_, ?_⟩
  · rw [hd] at hQ
    have := congrFun (congrFun hQ i) i
    rw [diagonal_conjTranspose, diagonal_mul_diagonal, diagonal_apply_eq, one_apply_eq, Pi.star_apply,
      Complex.star_def, ← Complex.normSq_eq_conj_mul_self, Complex.normSq_eq_norm_sq] at this
    have h2 : ‖(Uᴴ * V * U') i i‖ ^ 2 = 1 := by exact_mod_cast this
    exact (pow_eq_one_iff_of_nonneg (norm_nonneg _) two_ne_zero).1 h2
  · rw [← hd]
    simp only [Matrix.mul_assoc]
    rw [uni_cancel' hU, uni_cancel hV]

/-- the orthonormalised orbitals only get the phases -/
theorem loewdin_uni {la la' : Lapack} (hla : LapackOk la) (hla' : LapackOk la') (ht : EighTotal la) (ht' : EighTotal la')
    (hV : Uni V) {S : Mat N N} (hS : S.IsHermitian) (X : Mat N B) :
    ∃ Y, loewdin la X (S * X) = .ok Y ∧ loewdin la' (X * V) (S * (X * V)) = .ok (Y * V) := by
  have hM : (Xᴴ * (S * X)).IsHermitian := by
    rw [← Matrix.mul_assoc]; exact isHermitian_conjTranspose_mul_mul X hS
  have hM' : ((X * V)ᴴ * (S * (X * V))) = Vᴴ * (Xᴴ * (S * X)) * V := by
    rw [conjTranspose_mul]; simp only [Matrix.mul_assoc]
  obtain ⟨w, U, h⟩ := eigh_total ht hM
  obtain ⟨w', U', h'⟩ := eigh_total ht' ((herm_uni hV).2 hM)
  obtain ⟨Y, hY⟩ := loewdin_ok h
  obtain ⟨Y', hY'⟩ := loewdin_ok (X := X * V) (SX := S * (X * V)) (by rw [hM']; exact h')
  obtain ⟨w1, U1, a1, a2⟩ := loewdin_inv hY
  obtain ⟨w2, U2, b1, b2⟩ := loewdin_inv hY'
  rw [h] at a1
  rw [hM', h'] at b1
  simp only [Res.ok.injEq, Prod.mk.injEq] at a1 b1
  obtain ⟨rfl, rfl⟩ := a1
  obtain ⟨rfl, rfl⟩ := b1
  obtain ⟨u1, u2⟩ := hla.eigh hM h
  obtain ⟨u1', u2'⟩ := hla'.eigh ((herm_uni hV).2 hM) h'
  have key := eig_fun hV u1 u1' u2 u2' fun x => 1 / √x
  refine ⟨Y, hY, hY'.trans ?_⟩
  rw [a2, b2]
  have e1 : invSqrt w' U' = Vᴴ * invSqrt w U * V := by
    simp only [invSqrt, rdiag, loewdinAux]
    exact key
  rw [e1, Matrix.mul_assoc X, ← Matrix.mul_assoc V, ← Matrix.mul_assoc V, hV.right, Matrix.one_mul, Matrix.mul_assoc]

theorem eigh_eq {la : Lapack} (ht : EighTotal la) (hA : A.IsHermitian) : la.eigh A = .ok (la.heevd A).1 := by
  rw [Lapack.eigh]; simp [ht A hA]

/-- a step in another gauge and with another eigensolver -/
theorem geodesicUs_phase {la la' : Lapack} (hla : LapackOk la) (hla' : LapackOk la') (ht : EighTotal la)
    (ht' : EighTotal la') (hs : EighSorted la) (hs' : EighSorted la') {v : Fin B → ℂ} (hv : ∀ i, ‖v i‖ = 1) {S : Mat N N}
    (hS : S.IsHermitian) (X zx : Mat N B) (e : Fin B → ℝ) {zeta : Mat B B} (hz : zeta.IsHermitian) (t : ℝ) :
    (la'.heevd (advanceEta t (makeDiag e) ((diagonal v)ᴴ * zeta * diagonal v))).1.1
        = (la.heevd (advanceEta t (makeDiag e) zeta)).1.1 ∧
      ∃ g g', geodesicUs la X (makeDiag e) zx zeta S t = .ok g ∧
        geodesicUs la' (X * diagonal v) (makeDiag e) (zx * diagonal v) ((diagonal v)ᴴ * zeta * diagonal v) S t = .ok g' ∧
        g'.ek = g.ek ∧ g.ek = (la.heevd (advanceEta t (makeDiag e) zeta)).1.1 ∧
        (Function.Injective g.ek → ∃ u : Fin B → ℂ, (∀ i, ‖u i‖ = 1) ∧
          g'.ul = (diagonal v)ᴴ * g.ul * diagonal u ∧ g'.X = g.X * diagonal u) := by
  have hV := uni_diagonal hv
  have hA : (advanceEta t (makeDiag e) zeta).IsHermitian := by
    have := addM_hermitian (makeDiag_hermitian e) hz t 1
    simpa only [advanceEta, Complex.ofReal_one] using this
  have hA' : advanceEta t (makeDiag e) ((diagonal v)ᴴ * zeta * diagonal v)
      = (diagonal v)ᴴ * advanceEta t (makeDiag e) zeta * diagonal v := by
    simp only [advanceEta, addM, Matrix.mul_add, Matrix.add_mul, one_smul, Matrix.mul_smul, Matrix.smul_mul,
      makeDiag_phase (phase_star hv)]
  have hx : addM (X * diagonal v) (zx * diagonal v) (t : ℂ) = addM X zx (t : ℂ) * diagonal v := by
    simp only [addM, Matrix.add_mul, Matrix.smul_mul]
  have hB := (herm_uni hV).2 hA
  obtain ⟨q1, q2⟩ := hla.eigen _ hA (ht _ hA)
  obtain ⟨q1', q2'⟩ := hla'.eigen _ hB (ht' _ hB)
  have he := eig_values hV q1 q1' q2 q2' (hs _ hA) (hs' _ hB)
  have h1 : la.eigh (advanceEta t (makeDiag e) zeta) = .ok (la.heevd (advanceEta t (makeDiag e) zeta)).1 :=
    eigh_eq ht hA
  have h1' : la'.eigh ((diagonal v)ᴴ * advanceEta t (makeDiag e) zeta * diagonal v)
      = .ok (la'.heevd ((diagonal v)ᴴ * advanceEta t (makeDiag e) zeta * diagonal v)).1 :=
    eigh_eq ht' hB
  rw [he] at q2'
  generalize hr : la.heevd (advanceEta t (makeDiag e) zeta) = r at *
  generalize hr' : la'.heevd ((diagonal v)ᴴ * advanceEta t (makeDiag e) zeta * diagonal v) = r' at *
  obtain ⟨Y, hY, hY'⟩ := loewdin_uni hla hla' ht ht' hV hS (addM X zx (t : ℂ))
  rw [hA', hr']
  refine ⟨he, ⟨r.1.1, r.1.2, Y * r.1.2⟩, ⟨r'.1.1, r'.1.2, Y * diagonal v * r'.1.2⟩, ?_, ?_, he, rfl, fun hi => ?_⟩
  · simp only [geodesicUs, h1, Res.bind_ok, advanceX, hY, transformM, Res.pure_eq]
  · simp only [geodesicUs, hA', h1', Res.bind_ok, advanceX, hx, hY', transformM, Res.pure_eq]
  · obtain ⟨u, hu, e1⟩ := eig_vectors hV q1 q1' q2 q2' hi
    refine ⟨u, hu, e1, ?_⟩
    show Y * diagonal v * r'.1.2 = Y * r.1.2 * diagonal u
    rw [e1, Matrix.mul_assoc Y, ← Matrix.mul_assoc (diagonal v), ← Matrix.mul_assoc (diagonal v), hV.right,
      Matrix.one_mul, Matrix.mul_assoc]

end

end Nlcg
