import Verif.Spec.Inexact
import Verif.Proofs.Geodesic

/-! Loewdin's orthonormalisation with rounded operations. -/

namespace Nlcg
open Matrix Spec ComplexOrder
open scoped Matrix.Norms.L2Operator

variable {N B m n : ℕ}

theorem norm11 (A : Mat 1 1) : ‖A‖ = ‖A 0 0‖ := by
  have : A = diagonal fun _ => A 0 0 := by
    ext i j
    obtain rfl := Subsingleton.elim i 0
    obtain rfl := Subsingleton.elim j 0
    simp
  conv_lhs => rw [this]
  rw [l2_opNorm_diagonal, pi_norm_const]

theorem col_sq (Y : Mat n 1) : ‖Y‖ * ‖Y‖ = ((Yᴴ * Y) 0 0).re := by
  rw [← l2_opNorm_conjTranspose_mul_self, norm11]
  have h : (0 : ℂ) ≤ (Yᴴ * Y) 0 0 := (posSemidef_conjTranspose_mul_self Y).diag_nonneg
  exact Complex.norm_of_nonneg' h |> fun h => by rw [← Complex.ofReal_re ‖_‖, h]

/-- unit column -/
def unitCol (i : Fin n) : Mat n 1 := fun j _ => if j = i then 1 else 0

theorem unitCol_norm (i : Fin n) : ‖unitCol i‖ = 1 := by
  have h := col_sq (unitCol i)
  have : ((unitCol i)ᴴ * unitCol i) 0 0 = 1 := by
    simp [mul_apply, unitCol, conjTranspose_apply]
  rw [this, Complex.one_re] at h
  nlinarith [norm_nonneg (unitCol i)]

theorem entry_eq (A : Mat n n) (i j : Fin n) : ((unitCol i)ᴴ * A * unitCol j) 0 0 = A i j := by
  simp [mul_apply, unitCol, conjTranspose_apply]

theorem norm_entry (A : Mat n n) (i j : Fin n) : ‖A i j‖ ≤ ‖A‖ := by
  rw [← entry_eq A i j, ← norm11]
  refine (l2_opNorm_mul _ _).trans ?_
  rw [unitCol_norm, mul_one]
  refine (l2_opNorm_mul _ _).trans ?_
  rw [l2_opNorm_conjTranspose, unitCol_norm, one_mul]

theorem norm_mul3 {a b c d : ℕ} (X : Mat a b) (Y : Mat b c) (Z : Mat c d) : ‖X * Y * Z‖ ≤ ‖X‖ * ‖Y‖ * ‖Z‖ :=
  (l2_opNorm_mul _ _).trans (mul_le_mul_of_nonneg_right (l2_opNorm_mul _ _) (norm_nonneg _))

theorem norm_one_le : ‖(1 : Mat n n)‖ ≤ 1 := by
  rw [← diagonal_one, l2_opNorm_diagonal]
  exact (pi_norm_le_iff_of_nonneg zero_le_one).2 fun i => by simp

theorem norm_diag_le {v : Fin n → ℝ} {r : ℝ} (hr : 0 ≤ r) (h : ∀ i, |v i| ≤ r) :
    ‖(diagonal fun i => (v i : ℂ) : Mat n n)‖ ≤ r := by
  rw [l2_opNorm_diagonal]
  exact (pi_norm_le_iff_of_nonneg hr).2 fun i => by rw [Complex.norm_real, Real.norm_eq_abs]; exact h i

/-- nearly unitary matrices -/
theorem near_unitary {U : Mat n n} {eps : ℝ} (h : ‖Uᴴ * U - 1‖ ≤ eps) : ‖U‖ * ‖U‖ ≤ 1 + eps := by
  rw [← l2_opNorm_conjTranspose_mul_self]
  have : Uᴴ * U = (Uᴴ * U - 1) + 1 := by abel
  rw [this]
  refine (norm_add_le _ _).trans ?_
  linarith [norm_one_le (n := n)]

/-- `Y` with `U^H Y` a unit column -/
theorem exists_preimage {U : Mat n n} {eps : ℝ} (he : eps < 1) (h : ‖U * Uᴴ - 1‖ ≤ eps) (i : Fin n) :
    ∃ Y : Mat n 1, Uᴴ * Y = unitCol i := by
  have hu : IsUnit (U * Uᴴ) := by
    have : U * Uᴴ = 1 - (1 - U * Uᴴ) := by abel
    rw [this]
    refine isUnit_one_sub_of_norm_lt_one ?_
    rw [norm_sub_rev]
    exact h.trans_lt he
  have hd : IsUnit (Uᴴ).det := by
    rw [isUnit_iff_isUnit_det, det_mul] at hu
    exact isUnit_of_mul_isUnit_right hu
  exact ⟨(Uᴴ)⁻¹ * unitCol i, by rw [← Matrix.mul_assoc, mul_nonsing_inv _ hd, Matrix.one_mul]⟩

/-- the eigenvalues found are bounded below -/
theorem eig_lower {M U : Mat n n} {w : Fin n → ℝ} {eps e mm : ℝ} (he : eps ≤ 1 / 100)
    (hm : 0 < mm) (hM : (M - (mm : ℂ) • (1 : Mat n n)).PosSemidef) (h1 : ‖Uᴴ * U - 1‖ ≤ eps) (h2 : ‖U * Uᴴ - 1‖ ≤ eps)
    (h3 : ‖M - U * diagonal (fun i => (w i : ℂ)) * Uᴴ‖ ≤ e) (h4 : e ≤ mm / 2) (i : Fin n) : mm / 4 ≤ w i := by
  obtain ⟨Y, hY⟩ := exists_preimage (by linarith) h2 i
  set E := M - U * diagonal (fun i => (w i : ℂ)) * Uᴴ with hE
  have hw : (Yᴴ * (U * diagonal (fun i => (w i : ℂ)) * Uᴴ) * Y) 0 0 = w i := by
    have : Yᴴ * (U * diagonal (fun i => (w i : ℂ)) * Uᴴ) * Y
        = (unitCol i)ᴴ * diagonal (fun i => (w i : ℂ)) * unitCol i := by
      rw [← hY, conjTranspose_mul, conjTranspose_conjTranspose]
      simp only [Matrix.mul_assoc]
    rw [this, entry_eq, diagonal_apply_eq]
  have hE' : ‖Yᴴ * E * Y‖ ≤ e * (‖Y‖ * ‖Y‖) := by
    refine (norm_mul3 _ _ _).trans ?_
    rw [l2_opNorm_conjTranspose]
    nlinarith [mul_nonneg (norm_nonneg Y) (norm_nonneg Y)]
  have hEr : |((Yᴴ * E * Y) 0 0).re| ≤ e * (‖Y‖ * ‖Y‖) :=
    (Complex.abs_re_le_norm _).trans (by rw [← norm11]; exact hE')
  have hMr : mm * (‖Y‖ * ‖Y‖) ≤ ((Yᴴ * M * Y) 0 0).re := by
    have h0 : (0 : ℂ) ≤ (Yᴴ * (M - (mm : ℂ) • (1 : Mat n n)) * Y) 0 0 :=
      (hM.conjTranspose_mul_mul_same Y).diag_nonneg
    have := (Complex.le_def.1 h0).1
    rw [Matrix.mul_sub, Matrix.sub_mul, Matrix.sub_apply, Matrix.mul_smul, Matrix.mul_one, Matrix.smul_mul, Matrix.smul_apply] at this
    rw [col_sq]
    simp only [Complex.zero_re, Complex.sub_re, smul_eq_mul, Complex.re_ofReal_mul] at this
    linarith
  have hsplit : ((Yᴴ * E * Y) 0 0).re = ((Yᴴ * M * Y) 0 0).re - w i := by
    rw [hE, Matrix.mul_sub, Matrix.sub_mul, Matrix.sub_apply, hw, Complex.sub_re, Complex.ofReal_re]
  have hYn : 1 ≤ (1 + eps) * (‖Y‖ * ‖Y‖) := by
    have h5 : ‖unitCol i‖ ≤ ‖U‖ * ‖Y‖ := by
      rw [← hY]; refine (l2_opNorm_mul _ _).trans ?_; rw [l2_opNorm_conjTranspose]
    rw [unitCol_norm] at h5
    have h6 := near_unitary h1
    have h7 : 1 ≤ (‖U‖ * ‖U‖) * (‖Y‖ * ‖Y‖) := by nlinarith
    exact h7.trans (mul_le_mul_of_nonneg_right h6 (mul_nonneg (norm_nonneg _) (norm_nonneg _)))
  have hb := abs_le.1 hEr
  have hyy := mul_nonneg (norm_nonneg Y) (norm_nonneg Y)
  generalize ‖Y‖ * ‖Y‖ = y at *
  have : (mm / 2) * y ≤ w i := by nlinarith
  have : 1 ≤ 2 * y := by nlinarith
  nlinarith

/-- and above -/
theorem eig_upper {M U : Mat n n} {w : Fin n → ℝ} {eps e L : ℝ} (he : eps ≤ 1 / 100)
    (hw : ∀ i, 0 ≤ w i) (hM : ‖M‖ ≤ L) (h1 : ‖Uᴴ * U - 1‖ ≤ eps)
    (h3 : ‖M - U * diagonal (fun i => (w i : ℂ)) * Uᴴ‖ ≤ e) (h4 : e ≤ L / 2) (i : Fin n) : w i ≤ 2 * L := by
  have heps : 0 ≤ eps := (norm_nonneg _).trans h1
  set G := Uᴴ * U with hG
  have hGi : 1 - eps ≤ ‖G i i‖ := by
    have : ‖(G - 1) i i‖ ≤ eps := (norm_entry _ _ _).trans h1
    rw [Matrix.sub_apply, one_apply_eq] at this
    have := norm_sub_norm_le (1 : ℂ) (G i i)
    rw [norm_one, norm_sub_rev] at this
    linarith
  set Q := U * diagonal (fun i => (w i : ℂ)) * Uᴴ with hQ
  have hQn : ‖Q‖ ≤ 3 / 2 * L := by
    have : Q = M - (M - Q) := by abel
    rw [this]
    refine (norm_sub_le _ _).trans ?_
    linarith
  have hbig : ‖Uᴴ * Q * U‖ ≤ (1 + eps) * (3 / 2 * L) := by
    refine (norm_mul3 _ _ _).trans ?_
    rw [l2_opNorm_conjTranspose]
    have := near_unitary h1
    have hL : 0 ≤ L := (norm_nonneg _).trans hM
    calc ‖U‖ * ‖Q‖ * ‖U‖ = (‖U‖ * ‖U‖) * ‖Q‖ := by ring
      _ ≤ (1 + eps) * (3 / 2 * L) := mul_le_mul this hQn (norm_nonneg _) (by linarith)
  have hentry : ((Uᴴ * Q * U) i i).re = ∑ j, w j * Complex.normSq (G j i) := by
    have : Uᴴ * Q * U = Gᴴ * (diagonal (fun i => (w i : ℂ)) * G) := by
      rw [hQ, hG, conjTranspose_mul, conjTranspose_conjTranspose]
      simp only [Matrix.mul_assoc]
    rw [this, mul_apply, Complex.re_sum]
    refine Finset.sum_congr rfl fun j _ => ?_
    rw [conjTranspose_apply, diagonal_mul]
    generalize G j i = z
    simp [Complex.normSq_apply]
    ring
  have hterm : w i * Complex.normSq (G i i) ≤ ((Uᴴ * Q * U) i i).re := by
    rw [hentry]
    exact Finset.single_le_sum (f := fun j => w j * Complex.normSq (G j i))
      (fun j _ => mul_nonneg (hw j) (Complex.normSq_nonneg _)) (Finset.mem_univ i)
  have hre : ((Uᴴ * Q * U) i i).re ≤ (1 + eps) * (3 / 2 * L) :=
    (Complex.re_le_norm _).trans ((norm_entry _ _ _).trans hbig)
  rw [Complex.normSq_eq_norm_sq] at hterm
  have hL : 0 ≤ L := (norm_nonneg _).trans hM
  have hg : (99 / 100 : ℝ) ^ 2 ≤ ‖G i i‖ ^ 2 := by
    refine pow_le_pow_left₀ (by norm_num) ?_ 2
    linarith
  have h8 := mul_le_mul_of_nonneg_left hg (hw i)
  nlinarith

/-- Loewdin's matrix with exact products but inexact eigenvectors -/
theorem isoCore {M U : Mat n n} {w : Fin n → ℝ} {eps a mm L : ℝ} (he : eps ≤ 1 / 100)
    (hm : 0 < mm) (hmL : mm ≤ L) (hq : 3 * eps * (L / mm) ≤ 1) (hML : ‖M‖ ≤ L)
    (hM : (M - (mm : ℂ) • (1 : Mat n n)).PosSemidef) (h1 : ‖Uᴴ * U - 1‖ ≤ eps) (h2 : ‖U * Uᴴ - 1‖ ≤ eps)
    (h3 : ‖M - U * diagonal (fun i => (w i : ℂ)) * Uᴴ‖ ≤ a * L) (h4 : a * L ≤ mm / 2) :
    (∀ i, 0 < w i ∧ 1 / √(w i) ≤ 2 / √mm) ∧
    ‖(U * diagonal (fun i => ((1 / √(w i) : ℝ) : ℂ)) * Uᴴ)ᴴ * M * (U * diagonal (fun i => ((1 / √(w i) : ℝ) : ℂ)) * Uᴴ) - 1‖
      ≤ (11 * eps + 5 * a) * (L / mm) := by
  have heps : 0 ≤ eps := (norm_nonneg _).trans h1
  have hL : 0 < L := hm.trans_le hmL
  have hlow := eig_lower he hm hM h1 h2 h3 h4
  have hpos : ∀ i, 0 < w i := fun i => lt_of_lt_of_le (by linarith) (hlow i)
  have hup := eig_upper he (fun i => (hpos i).le) hML h1 h3 (h4.trans (by linarith))
  have hsm : 0 < √mm := Real.sqrt_pos.2 hm
  have hr : ∀ i, 1 / √(w i) ≤ 2 / √mm := fun i => by
    have h5 : √mm / 2 ≤ √(w i) := by
      rw [Real.le_sqrt' (by positivity), div_pow, Real.sq_sqrt hm.le]
      linarith [hlow i]
    rw [div_le_div_iff₀ (Real.sqrt_pos.2 (hpos i)) hsm]
    linarith
  refine ⟨fun i => ⟨hpos i, hr i⟩, ?_⟩
  set D : Mat n n := diagonal (fun i => ((1 / √(w i) : ℝ) : ℂ)) with hD
  set W : Mat n n := diagonal (fun i => (w i : ℂ)) with hW
  set V : Mat n n := diagonal (fun i => ((√(w i) : ℝ) : ℂ)) with hV
  set E := M - U * W * Uᴴ with hE
  set k := L / mm with hk
  have hk1 : 1 ≤ k := by rw [hk, le_div_iff₀ hm]; linarith
  have hDV : D * V = 1 := by
    rw [hD, hV, diagonal_mul_diagonal, ← diagonal_one]
    congr 1
    funext i
    rw [← Complex.ofReal_mul, one_div, inv_mul_cancel₀ (Real.sqrt_pos.2 (hpos i)).ne', Complex.ofReal_one]
  have hVV : V * V = W := by
    rw [hV, hW, diagonal_mul_diagonal]
    congr 1
    funext i
    rw [← Complex.ofReal_mul, Real.mul_self_sqrt (hpos i).le]
  have hVH : Vᴴ = V := by
    rw [hV, diagonal_conjTranspose]; congr 1; funext i; simp
  have hDH : Dᴴ = D := by
    rw [hD, diagonal_conjTranspose]; congr 1; funext i; simp
  have hDn : ‖D‖ ≤ 2 / √mm := norm_diag_le (by positivity) fun i => by
    rw [abs_of_nonneg (by positivity)]; exact hr i
  have hVn : ‖V‖ ≤ √(2 * L) := norm_diag_le (Real.sqrt_nonneg _) fun i => by
    rw [abs_of_nonneg (Real.sqrt_nonneg _)]; exact Real.sqrt_le_sqrt (hup i)
  -- the deviation caused by the eigenvectors
  set Q := D * (Uᴴ * U - 1) * V with hQ
  have hQn : ‖Q‖ ≤ 3 * eps * k := by
    have hc : 2 / √mm * √(2 * L) ≤ 3 * k := by
      have h5 : 2 / √mm * √(2 * L) = √(8 * k) := by
        rw [hk, show 8 * (L / mm) = 4 / mm * (2 * L) by ring, Real.sqrt_mul (x := 4 / mm) (by positivity),
          Real.sqrt_div (x := 4) (by norm_num), show (4 : ℝ) = 2 ^ 2 by norm_num, Real.sqrt_sq (by norm_num)]
      rw [h5, Real.sqrt_le_left (by positivity)]
      nlinarith
    calc ‖Q‖ ≤ ‖D‖ * ‖Uᴴ * U - 1‖ * ‖V‖ := norm_mul3 _ _ _
      _ ≤ 2 / √mm * eps * √(2 * L) := by gcongr
      _ = eps * (2 / √mm * √(2 * L)) := by ring
      _ ≤ eps * (3 * k) := mul_le_mul_of_nonneg_left hc heps
      _ = 3 * eps * k := by ring
  have hDGV : D * (Uᴴ * U) * V = 1 + Q := by
    rw [hQ, Matrix.mul_sub, Matrix.sub_mul, Matrix.mul_one, hDV]; abel
  have hVGD : V * (Uᴴ * U) * D = 1 + Qᴴ := by
    have := congrArg conjTranspose hDGV
    rw [conjTranspose_mul, conjTranspose_mul, conjTranspose_mul, conjTranspose_conjTranspose, hVH, hDH,
      conjTranspose_add, conjTranspose_one] at this
    rw [← this]; simp only [Matrix.mul_assoc]
  -- the deviation caused by the eigenvalues
  set F := D * (Uᴴ * E * U) * D with hF
  have hUU := near_unitary h1
  have hFn : ‖F‖ ≤ (1 + eps) * (4 * (a * k)) := by
    have h5 : ‖Uᴴ * E * U‖ ≤ (1 + eps) * (a * L) := by
      refine (norm_mul3 _ _ _).trans ?_
      rw [l2_opNorm_conjTranspose]
      calc ‖U‖ * ‖E‖ * ‖U‖ = ‖U‖ * ‖U‖ * ‖E‖ := by ring
        _ ≤ (1 + eps) * (a * L) := mul_le_mul hUU h3 (norm_nonneg _) (by linarith)
    have haL : 0 ≤ a * L := (norm_nonneg _).trans h3
    calc ‖F‖ ≤ ‖D‖ * ‖Uᴴ * E * U‖ * ‖D‖ := norm_mul3 _ _ _
      _ ≤ 2 / √mm * ((1 + eps) * (a * L)) * (2 / √mm) := by gcongr
      _ = (1 + eps) * (4 * (a * L)) / (√mm * √mm) := by ring
      _ = (1 + eps) * (4 * (a * k)) := by rw [Real.mul_self_sqrt hm.le, hk]; ring
  have hinner : D * (Uᴴ * M * U) * D = (1 + Q) * (1 + Qᴴ) + F := by
    have hMs : M = U * W * Uᴴ + E := by rw [hE]; abel
    rw [hF, ← hDGV, ← hVGD]
    conv_lhs => rw [hMs, ← hVV]
    simp only [Matrix.mul_add, Matrix.add_mul, Matrix.mul_assoc]
  have hwhole : (U * D * Uᴴ)ᴴ * M * (U * D * Uᴴ) = U * (D * (Uᴴ * M * U) * D) * Uᴴ := by
    rw [conjTranspose_mul, conjTranspose_mul, conjTranspose_conjTranspose, hDH]
    simp only [Matrix.mul_assoc]
  rw [hwhole, hinner]
  have hdev : U * ((1 + Q) * (1 + Qᴴ) + F) * Uᴴ - 1 = (U * Uᴴ - 1) + U * (Q + Qᴴ + Q * Qᴴ + F) * Uᴴ := by
    simp only [Matrix.mul_add, Matrix.add_mul, Matrix.mul_one, Matrix.one_mul]
    abel
  rw [hdev]
  have hsum : ‖Q + Qᴴ + Q * Qᴴ + F‖ ≤ 9 * eps * k + (1 + eps) * (4 * (a * k)) := by
    have h6 : ‖Q * Qᴴ‖ ≤ 3 * eps * k := by
      refine (l2_opNorm_mul _ _).trans ?_
      rw [l2_opNorm_conjTranspose]
      calc ‖Q‖ * ‖Q‖ ≤ (3 * eps * k) * 1 := mul_le_mul hQn (hQn.trans hq) (norm_nonneg _) (by positivity)
        _ = 3 * eps * k := mul_one _
    refine (norm_add_le _ _).trans ?_
    have h7 := norm_add₃_le (a := Q) (b := Qᴴ) (c := Q * Qᴴ)
    rw [l2_opNorm_conjTranspose] at h7
    linarith
  refine (norm_add_le _ _).trans ?_
  have h8 : ‖U * (Q + Qᴴ + Q * Qᴴ + F) * Uᴴ‖ ≤ (1 + eps) * (9 * eps * k + (1 + eps) * (4 * (a * k))) := by
    refine (norm_mul3 _ _ _).trans ?_
    rw [l2_opNorm_conjTranspose]
    calc ‖U‖ * ‖Q + Qᴴ + Q * Qᴴ + F‖ * ‖U‖ = ‖U‖ * ‖U‖ * ‖Q + Qᴴ + Q * Qᴴ + F‖ := by ring
      _ ≤ _ := mul_le_mul hUU hsum (norm_nonneg _) (by linarith)
  have ha : 0 ≤ a := by
    have : 0 ≤ a * L := (norm_nonneg _).trans h3
    exact nonneg_of_mul_nonneg_left this hL
  have e1 : eps ≤ eps * k := by nlinarith
  have e2 : (1 + eps) * (9 * eps * k) ≤ 101 / 100 * (9 * (eps * k)) := by
    have : 0 ≤ eps * k := by positivity
    nlinarith
  have e3 : (1 + eps) * ((1 + eps) * (4 * (a * k))) ≤ 5 * (a * k) := by
    have : 0 ≤ a * k := by positivity
    have : (1 + eps) * (1 + eps) ≤ 5 / 4 := by nlinarith
    nlinarith
  nlinarith [mul_nonneg heps (zero_le_one.trans hk1)]

theorem nearIso {A B : Mat m n} {x y : ℝ} (h : ‖A - B‖ ≤ y) (hB : ‖B‖ ≤ x) : ‖A‖ ≤ x + y := by
  have : A = B + (A - B) := by abel
  rw [this]
  exact (norm_add_le _ _).trans (add_le_add hB h)

theorem norm_three (S : Mat N N) (A C : Mat N B) : ‖Aᴴ * (S * C)‖ ≤ ‖S‖ * (‖A‖ * ‖C‖) := by
  refine (l2_opNorm_mul _ _).trans ?_
  rw [l2_opNorm_conjTranspose]
  calc ‖A‖ * ‖S * C‖ ≤ ‖A‖ * (‖S‖ * ‖C‖) := mul_le_mul_of_nonneg_left (l2_opNorm_mul _ _) (norm_nonneg _)
    _ = ‖S‖ * (‖A‖ * ‖C‖) := by ring

/-- the overlap matrix -/
theorem overlap_error {ops : MatOps} {eps gamma L : ℝ} (hr : RoundedOps ops eps gamma) {S : Mat N N}
    {X1 : Mat N B} (he : eps ≤ 1 / 100) (hXL : ‖S‖ * (‖X1‖ * ‖X1‖) ≤ L) :
    ‖X1ᴴ * (S * X1)‖ ≤ L ∧ ‖ops.inner X1 (ops.apply S X1) - X1ᴴ * (S * X1)‖ ≤ 3 * eps * L := by
  have heps := hr.eps_nonneg
  refine ⟨(norm_three _ _ _).trans hXL, ?_⟩
  have hSX := hr.apply S X1
  have hSXn : ‖ops.apply S X1‖ ≤ ‖S‖ * ‖X1‖ + eps * (‖S‖ * ‖X1‖) := nearIso hSX (l2_opNorm_mul _ _)
  have e1 : ‖ops.inner X1 (ops.apply S X1) - X1ᴴ * ops.apply S X1‖
      ≤ eps * (‖X1‖ * (‖S‖ * ‖X1‖ + eps * (‖S‖ * ‖X1‖))) :=
    (hr.inner _ _).trans (mul_le_mul_of_nonneg_left (mul_le_mul_of_nonneg_left hSXn (norm_nonneg _)) heps)
  have e2 : ‖X1ᴴ * (ops.apply S X1 - S * X1)‖ ≤ ‖X1‖ * (eps * (‖S‖ * ‖X1‖)) := by
    refine (l2_opNorm_mul _ _).trans ?_
    rw [l2_opNorm_conjTranspose]
    exact mul_le_mul_of_nonneg_left hSX (norm_nonneg _)
  have e3 : ops.inner X1 (ops.apply S X1) - X1ᴴ * (S * X1)
      = (ops.inner X1 (ops.apply S X1) - X1ᴴ * ops.apply S X1) + X1ᴴ * (ops.apply S X1 - S * X1) := by
    rw [Matrix.mul_sub]; abel
  rw [e3]
  refine (norm_add_le _ _).trans ?_
  have h0 : 0 ≤ ‖S‖ * (‖X1‖ * ‖X1‖) := by positivity
  generalize ‖S‖ = s at *
  generalize ‖X1‖ = x at *
  have e4 : eps * (x * (s * x + eps * (s * x))) + x * (eps * (s * x)) = (2 + eps) * eps * (s * (x * x)) := by ring
  have e5 : (2 + eps) * eps * (s * (x * x)) ≤ 3 * eps * L := by
    have : (2 + eps) * eps ≤ 3 * eps := mul_le_mul_of_nonneg_right (by linarith) heps
    calc (2 + eps) * eps * (s * (x * x)) ≤ 3 * eps * (s * (x * x)) := mul_le_mul_of_nonneg_right this h0
      _ ≤ 3 * eps * L := mul_le_mul_of_nonneg_left hXL (by positivity)
  linarith

/-- Loewdin's matrix -/
theorem matrix_error {ops : MatOps} {eps gamma r : ℝ} (hr : RoundedOps ops eps gamma) {U : Mat n n} {w : Fin n → ℝ}
    (he : eps ≤ 1 / 100) (hu1 : ‖Uᴴ * U - 1‖ ≤ eps) (hr0 : 0 < r) (hw1 : ∀ i, 0 < w i ∧ 1 / √(w i) ≤ r) :
    ‖U * diagonal (fun i => ((1 / √(w i) : ℝ) : ℂ)) * Uᴴ‖ ≤ 51 / 50 * r ∧
    ‖ops.outer (ops.scaleInvSqrt U w) U - U * diagonal (fun i => ((1 / √(w i) : ℝ) : ℂ)) * Uᴴ‖ ≤ 21 / 10 * eps * r := by
  have heps := hr.eps_nonneg
  have hVe := hr.scaleInvSqrt U w r hw1
  have hDn : ‖(diagonal (fun i => ((1 / √(w i) : ℝ) : ℂ)) : Mat n n)‖ ≤ r := norm_diag_le hr0.le fun i => by
    rw [abs_of_nonneg (by positivity)]; exact (hw1 i).2
  generalize (diagonal (fun i => ((1 / √(w i) : ℝ) : ℂ)) : Mat n n) = D at *
  generalize ops.scaleInvSqrt U w = V at *
  have hUU := near_unitary hu1
  have hU0 := norm_nonneg U
  have hUD : ‖U * D‖ ≤ ‖U‖ * r := (l2_opNorm_mul _ _).trans (mul_le_mul_of_nonneg_left hDn hU0)
  have hVn : ‖V‖ ≤ ‖U‖ * r + eps * (‖U‖ * r) := nearIso hVe hUD
  have e0 : ‖U * D * Uᴴ‖ ≤ ‖U‖ * r * ‖U‖ := by
    refine (l2_opNorm_mul _ _).trans ?_
    rw [l2_opNorm_conjTranspose]
    exact mul_le_mul_of_nonneg_right hUD hU0
  have e1 : ‖ops.outer V U - V * Uᴴ‖ ≤ eps * ((‖U‖ * r + eps * (‖U‖ * r)) * ‖U‖) :=
    (hr.outer _ _).trans (mul_le_mul_of_nonneg_left (mul_le_mul_of_nonneg_right hVn hU0) heps)
  have e2 : ‖(V - U * D) * Uᴴ‖ ≤ eps * (‖U‖ * r) * ‖U‖ := by
    refine (l2_opNorm_mul _ _).trans ?_
    rw [l2_opNorm_conjTranspose]
    exact mul_le_mul_of_nonneg_right hVe hU0
  have e3 : ops.outer V U - U * D * Uᴴ = (ops.outer V U - V * Uᴴ) + (V - U * D) * Uᴴ := by rw [Matrix.sub_mul]; abel
  rw [e3]
  have e7 := norm_add_le (ops.outer V U - V * Uᴴ) ((V - U * D) * Uᴴ)
  generalize ‖U‖ = u at *
  have e5 : (u * u) * (2 + eps) ≤ 21 / 10 := by
    have := mul_le_mul_of_nonneg_right hUU (show (0 : ℝ) ≤ 2 + eps by linarith)
    nlinarith
  have e6 := mul_le_mul_of_nonneg_right e5 (mul_nonneg heps hr0.le)
  have e8 := mul_le_mul_of_nonneg_right hUU hr0.le
  have e9 := mul_le_mul_of_nonneg_right he hr0.le
  constructor
  · linarith
  · linarith

/-- the orbitals -/
theorem orbital_error {ops : MatOps} {eps gamma r : ℝ} (hr : RoundedOps ops eps gamma) (he : eps ≤ 1 / 100)
    (hr0 : 0 < r) {X1 : Mat N B} {R0 R ul : Mat B B} (hul : ‖ulᴴ * ul - 1‖ ≤ eps) (h1 : ‖R0‖ ≤ 51 / 50 * r)
    (h2 : ‖R - R0‖ ≤ 21 / 10 * eps * r) :
    ‖X1 * R0 * ul‖ ≤ 11 / 10 * (‖X1‖ * r) ∧
    ‖ops.transform (ops.transform X1 R) ul - X1 * R0 * ul‖ ≤ 5 * eps * (‖X1‖ * r) := by
  have heps := hr.eps_nonneg
  have hx0 := norm_nonneg X1
  have hl0 := norm_nonneg ul
  have hl1 : ‖ul‖ ≤ 101 / 100 := by
    have := near_unitary hul
    nlinarith
  have hRn : ‖R‖ ≤ 11 / 10 * r := by
    have := nearIso h2 h1
    have := mul_le_mul_of_nonneg_right he hr0.le
    linarith
  have a1 : ‖ops.transform X1 R - X1 * R‖ ≤ eps * (‖X1‖ * (11 / 10 * r)) :=
    (hr.transform _ _).trans (mul_le_mul_of_nonneg_left (mul_le_mul_of_nonneg_left hRn hx0) heps)
  have hr2 := hr.transform (ops.transform X1 R) ul
  generalize ops.transform X1 R = X2 at *
  generalize ops.transform X2 ul = X3 at *
  have a2 : ‖X1 * (R - R0)‖ ≤ ‖X1‖ * (21 / 10 * eps * r) :=
    (l2_opNorm_mul _ _).trans (mul_le_mul_of_nonneg_left h2 hx0)
  have a3 : X2 - X1 * R0 = (X2 - X1 * R) + X1 * (R - R0) := by rw [Matrix.mul_sub]; abel
  have hX2e : ‖X2 - X1 * R0‖ ≤ 16 / 5 * eps * (‖X1‖ * r) := by
    rw [a3]
    refine (norm_add_le _ _).trans ?_
    linarith
  have b1 : ‖X1 * R0‖ ≤ ‖X1‖ * (51 / 50 * r) := (l2_opNorm_mul _ _).trans (mul_le_mul_of_nonneg_left h1 hx0)
  have hxr : 0 ≤ ‖X1‖ * r := by positivity
  have hxe := mul_le_mul_of_nonneg_right he hxr
  have hxe0 := mul_nonneg heps hxr
  have hX2n : ‖X2‖ ≤ 6 / 5 * (‖X1‖ * r) := by
    have := nearIso hX2e b1
    linarith
  constructor
  · refine (l2_opNorm_mul _ _).trans ?_
    have e2 : ‖X1 * R0‖ * ‖ul‖ ≤ ‖X1‖ * (51 / 50 * r) * (101 / 100) :=
      mul_le_mul b1 hl1 hl0 (by positivity)
    linarith
  · have e1 : ‖X3 - X2 * ul‖ ≤ eps * (6 / 5 * (‖X1‖ * r) * (101 / 100)) :=
      hr2.trans (mul_le_mul_of_nonneg_left (mul_le_mul hX2n hl1 hl0 (by positivity)) heps)
    have e2 : ‖(X2 - X1 * R0) * ul‖ ≤ 16 / 5 * eps * (‖X1‖ * r) * (101 / 100) :=
      (l2_opNorm_mul _ _).trans (mul_le_mul hX2e hl1 hl0 (by positivity))
    have e3 : X3 - X1 * R0 * ul = (X3 - X2 * ul) + (X2 - X1 * R0) * ul := by
      rw [Matrix.sub_mul]; abel
    rw [e3]
    refine (norm_add_le _ _).trans ?_
    linarith

/-- from the rotated exact matrix to the orbitals -/
theorem final_error {S : Mat N N} {X1 Y X3 : Mat N B} {eps r k d : ℝ} (heps : 0 ≤ eps) (he : eps ≤ 1 / 100) (hr0 : 0 < r)
    (hk : 0 ≤ k) (hsx : ‖S‖ * ((‖X1‖ * r) * (‖X1‖ * r)) ≤ 4 * k) (hYn : ‖Y‖ ≤ 11 / 10 * (‖X1‖ * r))
    (hZn : ‖X3 - Y‖ ≤ 5 * eps * (‖X1‖ * r)) (hmain : ‖Yᴴ * (S * Y) - 1‖ ≤ d) :
    orthoError S X3 ≤ d + 45 * (eps * k) := by
  have hsplit : X3 = Y + (X3 - Y) := by abel
  rw [orthoError, hsplit]
  generalize X3 - Y = Z at *
  have hexp : (Y + Z)ᴴ * (S * (Y + Z)) - 1
      = (Yᴴ * (S * Y) - 1) + (Yᴴ * (S * Z) + Zᴴ * (S * Y) + Zᴴ * (S * Z)) := by
    rw [conjTranspose_add]
    simp only [Matrix.mul_add, Matrix.add_mul]
    abel
  rw [hexp]
  refine (norm_add_le _ _).trans ?_
  have c3 := norm_three S Y Z
  have c4 := norm_three S Z Y
  have c5 := norm_three S Z Z
  rw [mul_comm ‖Z‖ ‖Y‖] at c4
  have c6 := norm_add₃_le (a := Yᴴ * (S * Z)) (b := Zᴴ * (S * Y)) (c := Zᴴ * (S * Z))
  have hxr : 0 ≤ ‖X1‖ * r := by positivity
  generalize ‖X1‖ * r = p at *
  have c1 : ‖S‖ * (‖Y‖ * ‖Z‖) ≤ 22 * (eps * k) := by
    calc ‖S‖ * (‖Y‖ * ‖Z‖) ≤ ‖S‖ * ((11 / 10 * p) * (5 * eps * p)) := by gcongr
      _ = 11 / 2 * eps * (‖S‖ * (p * p)) := by ring
      _ ≤ 11 / 2 * eps * (4 * k) := mul_le_mul_of_nonneg_left hsx (by positivity)
      _ = 22 * (eps * k) := by ring
  have c2 : ‖S‖ * (‖Z‖ * ‖Z‖) ≤ eps * k := by
    calc ‖S‖ * (‖Z‖ * ‖Z‖) ≤ ‖S‖ * ((5 * eps * p) * (5 * eps * p)) := by gcongr
      _ = 25 * (eps * eps) * (‖S‖ * (p * p)) := by ring
      _ ≤ 25 * (eps * eps) * (4 * k) := mul_le_mul_of_nonneg_left hsx (by positivity)
      _ = 100 * eps * (eps * k) := by ring
      _ ≤ 1 * (eps * k) := mul_le_mul_of_nonneg_right (by linarith) (by positivity)
      _ = eps * k := one_mul _
  linarith

/-- Loewdin's method followed by a rotation, with rounded operations -/
theorem step_error {ops : MatOps} {eps gamma mm L : ℝ} (hr : RoundedOps ops eps gamma) {S : Mat N N}
    (hS : S.IsHermitian) {X1 X2 : Mat N B} {ul : Mat B B} (he : eps ≤ 1 / 100) (hm : 0 < mm) (hmL : mm ≤ L)
    (hXL : ‖S‖ * (‖X1‖ * ‖X1‖) ≤ L) (hM : (X1ᴴ * (S * X1) - (mm : ℂ) • (1 : Mat B B)).PosSemidef)
    (hq : 3 * eps * (L / mm) ≤ 1) (h4 : (2 + 3 * gamma) * eps * L ≤ mm / 2) (hul : ‖ulᴴ * ul - 1‖ ≤ eps)
    (h : loewdinR ops X1 (ops.apply S X1) = .ok X2) :
    orthoError S (ops.transform X2 ul) ≤ (70 + 17 * gamma) * eps * (L / mm) := by
  have heps := hr.eps_nonneg
  have hgam := hr.gamma_nonneg
  obtain ⟨hMn, hMe⟩ := overlap_error hr he hXL
  have hMh : (X1ᴴ * (S * X1)).IsHermitian := by
    rw [← Matrix.mul_assoc]
    exact isHermitian_conjTranspose_mul_mul X1 hS
  have hk1 : 1 ≤ L / mm := by rw [le_div_iff₀ hm]; linarith
  obtain ⟨w, U, hw, rfl⟩ : ∃ w U, ops.eigh (ops.inner X1 (ops.apply S X1)) = .ok (w, U) ∧
      ops.transform X1 (ops.outer (ops.scaleInvSqrt U w) U) = X2 := by
    rw [loewdinR] at h
    rcases hw : ops.eigh (ops.inner X1 (ops.apply S X1)) with ⟨w, U⟩ | e | _ | _
    · rw [hw] at h
      exact ⟨w, U, rfl, Res.ok.inj h⟩
    all_goals rw [hw] at h; cases h
  obtain ⟨hu1, hu2⟩ := hr.unitary _ _ _ hw
  have hE : ‖X1ᴴ * (S * X1) - U * diagonal (fun i => (w i : ℂ)) * Uᴴ‖ ≤ (2 + 3 * gamma) * eps * L := by
    refine (hr.eigh _ _ w U hMh hw).trans ?_
    have h5 := nearIso hMe hMn
    have h6 := mul_le_mul_of_nonneg_left h5 heps
    have h7 := mul_le_mul_of_nonneg_left hMe hgam
    have hL : 0 ≤ L := (hm.trans_le hmL).le
    have h8 : eps * (L + 3 * eps * L) ≤ eps * (2 * L) := by
      refine mul_le_mul_of_nonneg_left ?_ heps
      nlinarith
    linarith
  obtain ⟨hw1, hcore⟩ := isoCore he hm hmL hq hMn hM hu1 hu2 hE h4
  have hr0 : 0 < 2 / √mm := by positivity
  obtain ⟨m1, m2⟩ := matrix_error hr he hu1 hr0 hw1
  obtain ⟨o1, o2⟩ := orbital_error hr he hr0 (X1 := X1) hul m1 m2
  have hsx : ‖S‖ * ((‖X1‖ * (2 / √mm)) * (‖X1‖ * (2 / √mm))) ≤ 4 * (L / mm) := by
    have e1 : 2 / √mm * (2 / √mm) = 4 / mm := by
      rw [div_mul_div_comm, Real.mul_self_sqrt hm.le]; norm_num
    calc ‖S‖ * ((‖X1‖ * (2 / √mm)) * (‖X1‖ * (2 / √mm))) = ‖S‖ * (‖X1‖ * ‖X1‖) * (2 / √mm * (2 / √mm)) := by ring
      _ ≤ L * (2 / √mm * (2 / √mm)) := mul_le_mul_of_nonneg_right hXL (by positivity)
      _ = 4 * (L / mm) := by rw [e1]; ring
  generalize hR0 : U * diagonal (fun i => ((1 / √(w i) : ℝ) : ℂ)) * Uᴴ = R0 at *
  have hmain : ‖(X1 * R0 * ul)ᴴ * (S * (X1 * R0 * ul)) - 1‖
      ≤ eps + (1 + eps) * ((11 * eps + 5 * ((2 + 3 * gamma) * eps)) * (L / mm)) := by
    have e1 : (X1 * R0 * ul)ᴴ * (S * (X1 * R0 * ul)) - 1
        = (ulᴴ * ul - 1) + ulᴴ * (R0ᴴ * (X1ᴴ * (S * X1)) * R0 - 1) * ul := by
      have : (X1 * R0 * ul)ᴴ * (S * (X1 * R0 * ul)) = ulᴴ * (R0ᴴ * (X1ᴴ * (S * X1)) * R0) * ul := by
        rw [conjTranspose_mul, conjTranspose_mul]
        simp only [Matrix.mul_assoc]
      rw [this, Matrix.mul_sub, Matrix.sub_mul, Matrix.mul_one]
      abel
    rw [e1]
    refine (norm_add_le _ _).trans (add_le_add hul ?_)
    refine (norm_mul3 _ _ _).trans ?_
    rw [l2_opNorm_conjTranspose]
    calc ‖ul‖ * ‖R0ᴴ * (X1ᴴ * (S * X1)) * R0 - 1‖ * ‖ul‖
        = ‖ul‖ * ‖ul‖ * ‖R0ᴴ * (X1ᴴ * (S * X1)) * R0 - 1‖ := by ring
      _ ≤ _ := mul_le_mul (near_unitary hul) hcore (norm_nonneg _) (by linarith)
  refine (final_error heps he hr0 (zero_le_one.trans hk1) hsx o1 o2 hmain).trans ?_
  clear hmain hsx o1 o2 hR0 m1 m2 hcore hw1 hE
  generalize L / mm = k at *
  have e3 : (1 + eps) * ((11 * eps + 5 * ((2 + 3 * gamma) * eps)) * k) ≤ 101 / 100 * ((21 + 15 * gamma) * (eps * k)) := by
    have : (11 * eps + 5 * ((2 + 3 * gamma) * eps)) * k = (21 + 15 * gamma) * (eps * k) := by ring
    rw [this]
    exact mul_le_mul_of_nonneg_right (by linarith) (by positivity)
  have e4 : eps * 1 ≤ eps * k := mul_le_mul_of_nonneg_left hk1 heps
  have e5 : 0 ≤ gamma * (eps * k) := by positivity
  have e6 : 0 ≤ eps * k := by positivity
  linarith

theorem posSemidef_of_norm {H : Mat n n} (hH : H.IsHermitian) {c : ℝ} (hc : ‖H‖ ≤ c) :
    ((c : ℂ) • (1 : Mat n n) + H).PosSemidef := by
  have hh : ((c : ℂ) • (1 : Mat n n) + H).IsHermitian := by
    refine IsHermitian.add ?_ hH
    rw [IsHermitian, conjTranspose_smul, conjTranspose_one]
    simp
  refine .of_dotProduct_mulVec_nonneg hh fun v => ?_
  set Y : Mat n 1 := fun i _ => v i with hY
  have e : star v ⬝ᵥ (((c : ℂ) • (1 : Mat n n) + H) *ᵥ v) = (Yᴴ * ((c : ℂ) • (1 : Mat n n) + H) * Y) 0 0 := by
    rw [Matrix.mul_assoc, mul_apply]
    rfl
  have him : (Yᴴ * ((c : ℂ) • (1 : Mat n n) + H) * Y).IsHermitian := isHermitian_conjTranspose_mul_mul Y hh
  rw [e, Complex.le_def]
  refine ⟨?_, ?_⟩
  · have h1 : |((Yᴴ * H * Y) 0 0).re| ≤ c * (‖Y‖ * ‖Y‖) := by
      refine (Complex.abs_re_le_norm _).trans ?_
      rw [← norm11]
      refine (norm_mul3 _ _ _).trans ?_
      rw [l2_opNorm_conjTranspose]
      calc ‖Y‖ * ‖H‖ * ‖Y‖ = ‖H‖ * (‖Y‖ * ‖Y‖) := by ring
        _ ≤ c * (‖Y‖ * ‖Y‖) := mul_le_mul_of_nonneg_right hc (by positivity)
    rw [Matrix.mul_add, Matrix.add_mul, Matrix.add_apply, Matrix.mul_smul, Matrix.mul_one, Matrix.smul_mul,
      Matrix.smul_apply, smul_eq_mul, Complex.add_re, Complex.re_ofReal_mul, ← col_sq, Complex.zero_re]
    linarith [(abs_le.1 h1).1]
  · have := him.apply 0 0
    have := congrArg Complex.im this
    simp only [Complex.star_def, Complex.conj_im] at this
    rw [Complex.zero_im]
    linarith

/-- one rounded step: a lower bound for the overlap matrix of the moved orbitals -/
theorem moved_lower {ops : MatOps} {eps gamma L : ℝ} (hr : RoundedOps ops eps gamma) {S : Mat N N}
    (hS : S.PosSemidef) {X Z : Mat N B} {t : ℝ} (he : eps ≤ 1 / 100) (hL : ‖S‖ * (‖X‖ + |t| * ‖Z‖) ^ 2 ≤ L)
    (hsmall : 3 * eps * L ≤ 1 / 8) (h0 : orthoError S X ≤ 1 / 8) (ht : |t| * ‖Xᴴ * (S * Z)‖ ≤ 1 / 8) :
    ‖S‖ * (‖ops.add X Z t‖ * ‖ops.add X Z t‖) ≤ 103 / 100 * L ∧
    ((ops.add X Z t)ᴴ * (S * ops.add X Z t) - ((1 / 2 : ℝ) : ℂ) • (1 : Mat B B)).PosSemidef := by
  have heps := hr.eps_nonneg
  have ha := hr.add X Z t
  set p := ‖X‖ + |t| * ‖Z‖ with hp
  have hp0 : 0 ≤ p := by positivity
  set P := X + (t : ℂ) • Z with hP
  have hPn : ‖P‖ ≤ p := by
    refine (norm_add_le _ _).trans ?_
    rw [norm_smul, Complex.norm_real, Real.norm_eq_abs]
  set F := ops.add X Z t - P with hF
  have hX1 : ops.add X Z t = P + F := by rw [hF]; abel
  have hX1n : ‖ops.add X Z t‖ ≤ p + eps * p := nearIso ha hPn
  have hs0 := norm_nonneg S
  have hLp : 0 ≤ L := le_trans (by positivity) hL
  refine ⟨?_, ?_⟩
  · calc ‖S‖ * (‖ops.add X Z t‖ * ‖ops.add X Z t‖) ≤ ‖S‖ * ((p + eps * p) * (p + eps * p)) := by gcongr
      _ = (1 + eps) * (1 + eps) * (‖S‖ * p ^ 2) := by ring
      _ ≤ 103 / 100 * L := by
        refine mul_le_mul ?_ hL (by positivity) (by norm_num)
        nlinarith
  · rw [hX1]
    set T := Xᴴ * (S * Z) with hT
    set H := (Xᴴ * (S * X) - 1) + ((t : ℂ) • T + (t : ℂ) • Tᴴ) + (Pᴴ * (S * F) + Fᴴ * (S * P) + Fᴴ * (S * F)) with hH
    have hdec : (P + F)ᴴ * (S * (P + F)) - ((1 / 2 : ℝ) : ℂ) • (1 : Mat B B)
        = (((1 / 2 : ℝ) : ℂ) • (1 : Mat B B) + H) + ((t : ℂ) • Z)ᴴ * S * ((t : ℂ) • Z) := by
      have hPP : Pᴴ * (S * P) = Xᴴ * (S * X) + ((t : ℂ) • T + (t : ℂ) • Tᴴ) + ((t : ℂ) • Z)ᴴ * S * ((t : ℂ) • Z) := by
        rw [hP, hT, conjTranspose_mul, conjTranspose_mul, conjTranspose_conjTranspose, hS.isHermitian.eq]
        simp only [conjTranspose_add, conjTranspose_smul, smul_add, Matrix.mul_add, Matrix.add_mul, Matrix.mul_smul, Matrix.smul_mul, Complex.star_def,
          Complex.conj_ofReal, Matrix.mul_assoc]
        abel
      have hone : (1 : Mat B B) = ((1 / 2 : ℝ) : ℂ) • (1 : Mat B B) + ((1 / 2 : ℝ) : ℂ) • (1 : Mat B B) := by
        rw [← add_smul]; norm_num
      rw [hH, conjTranspose_add]
      simp only [Matrix.mul_add, Matrix.add_mul]
      rw [hPP]
      conv_rhs => rw [show Xᴴ * (S * X) - (1 : Mat B B) = Xᴴ * (S * X) - (((1 / 2 : ℝ) : ℂ) • (1 : Mat B B) + ((1 / 2 : ℝ) : ℂ) • (1 : Mat B B)) by rw [← hone]]
      abel
    rw [hdec]
    refine PosSemidef.add ?_ (hS.conjTranspose_mul_mul_same _)
    refine posSemidef_of_norm ?_ ?_
    · have hsw : ∀ A C : Mat N B, (Aᴴ * (S * C))ᴴ = Cᴴ * (S * A) := fun A C => by
        rw [conjTranspose_mul, conjTranspose_mul, conjTranspose_conjTranspose, hS.isHermitian.eq, Matrix.mul_assoc]
      rw [IsHermitian, hH]
      simp only [conjTranspose_add, conjTranspose_sub, conjTranspose_one, conjTranspose_smul,
        conjTranspose_conjTranspose, hsw, Complex.star_def, Complex.conj_ofReal]
      abel
    · have f1 : ‖(t : ℂ) • T + (t : ℂ) • Tᴴ‖ ≤ 1 / 4 := by
        refine (norm_add_le _ _).trans ?_
        rw [norm_smul, norm_smul, l2_opNorm_conjTranspose, Complex.norm_real, Real.norm_eq_abs]
        linarith
      have f2 := norm_three S P F
      have f3 := norm_three S F P
      have f4 := norm_three S F F
      have f5 := norm_add₃_le (a := Pᴴ * (S * F)) (b := Fᴴ * (S * P)) (c := Fᴴ * (S * F))
      have g1 : ‖S‖ * (‖P‖ * ‖F‖) ≤ eps * L := by
        calc ‖S‖ * (‖P‖ * ‖F‖) ≤ ‖S‖ * (p * (eps * p)) := by gcongr
          _ = eps * (‖S‖ * p ^ 2) := by ring
          _ ≤ eps * L := mul_le_mul_of_nonneg_left hL heps
      have g2 : ‖S‖ * (‖F‖ * ‖F‖) ≤ eps * L := by
        calc ‖S‖ * (‖F‖ * ‖F‖) ≤ ‖S‖ * (eps * p * (eps * p)) := by gcongr
          _ = eps * (eps * (‖S‖ * p ^ 2)) := by ring
          _ ≤ eps * (1 * L) := mul_le_mul_of_nonneg_left (mul_le_mul (by linarith) hL (by positivity) (by norm_num)) heps
          _ = eps * L := by ring
      rw [mul_comm ‖F‖ ‖P‖] at f3
      refine (norm_add₃_le).trans ?_
      rw [orthoError] at h0
      linarith

end Nlcg
