import Verif.Spec.Levels
import Verif.Props.Geodesic
import Verif.Props.Residual

/-! # Distance of an expectation value from the next eigenvalue -/

namespace Nlcg
open Matrix Spec ComplexOrder

/-- generalised eigenvectors form a basis -/
theorem general_spectral {N : ℕ} {H S : Mat N N} (hH : H.IsHermitian) (hS : S.PosDef) :
    ∃ (V : Mat N N) (l : Fin N → ℝ), Vᴴ * (S * V) = 1 ∧ H * V = S * V * diagonal fun i => (l i : ℂ) := by
  have hinj : Function.Injective (1 : Mat N N).mulVec := by
    intro x y h
    simpa using h
  obtain ⟨⟨R, hR⟩, -⟩ := C46_defined refLapack_ok refLapack_total hS hinj
  have h1 := C46_orthonormal refLapack_ok hS hinj hR
  have hA : (Rᴴ * (H * R)).IsHermitian := by
    rw [← Matrix.mul_assoc]
    exact isHermitian_conjTranspose_mul_mul R hH
  obtain ⟨w1, w2⟩ := refLapack_ok.eigen (Rᴴ * (H * R)) hA (refLapack_total _ hA)
  generalize (refLapack.heevd (Rᴴ * (H * R))).1.2 = W at w1 w2
  generalize (refLapack.heevd (Rᴴ * (H * R))).1.1 = l at w1 w2
  have h2 : S * R * Rᴴ = 1 := by
    have h3 : R * (Rᴴ * S) = 1 := mul_eq_one_comm.mp (by rw [Matrix.mul_assoc]; exact h1)
    have := congrArg conjTranspose h3
    simpa [conjTranspose_mul, hS.isHermitian.eq, Matrix.mul_assoc] using this
  refine ⟨R * W, l, ?_, ?_⟩
  · calc (R * W)ᴴ * (S * (R * W)) = Wᴴ * (Rᴴ * (S * R)) * W := by
          simp only [conjTranspose_mul, Matrix.mul_assoc]
      _ = 1 := by rw [h1, Matrix.mul_one, w1]
  · calc H * (R * W) = S * R * Rᴴ * (H * (R * W)) := by rw [h2, Matrix.one_mul]
      _ = S * R * (Rᴴ * (H * R) * W) := by simp only [Matrix.mul_assoc]
      _ = S * (R * W) * diagonal fun i => (l i : ℂ) := by rw [w2]; simp only [Matrix.mul_assoc]

/-- square of the length of a vector -/
noncomputable def sqLen {m : ℕ} (v : Fin m → ℂ) : ℝ := ∑ i, Complex.normSq (v i)

theorem sqLen_eq {m : ℕ} (v : Fin m → ℂ) : (sqLen v : ℂ) = star v ⬝ᵥ v := by
  simp only [sqLen, dotProduct, Complex.ofReal_sum, Pi.star_apply, Complex.star_def, Complex.normSq_eq_conj_mul_self]

theorem sqLen_nonneg {m : ℕ} (v : Fin m → ℂ) : 0 ≤ sqLen v := Finset.sum_nonneg fun i _ => Complex.normSq_nonneg _

variable {N B : ℕ} {H S V : Mat N N} {l : Fin N → ℝ} {X : Mat N B}

theorem dual_complete (hV : Vᴴ * (S * V) = 1) : V * (Vᴴ * S) = 1 :=
  mul_eq_one_comm.mp (by rw [Matrix.mul_assoc]; exact hV)

theorem dual_pair (hV : Vᴴ * (S * V) = 1) (u y : Fin N → ℂ) :
    star (Vᴴ *ᵥ u) ⬝ᵥ (Vᴴ *ᵥ (S *ᵥ y)) = star u ⬝ᵥ y := by
  rw [star_mulVec, conjTranspose_conjTranspose, ← dotProduct_mulVec, mulVec_mulVec, mulVec_mulVec, Matrix.mul_assoc,
    dual_complete hV, one_mulVec]

theorem sqLen_add {m : ℕ} (u v : Fin m → ℂ) : sqLen (u + v) = sqLen u + sqLen v + 2 * (star u ⬝ᵥ v).re := by
  simp only [sqLen, dotProduct, Complex.re_sum, Finset.mul_sum, ← Finset.sum_add_distrib]
  refine Finset.sum_congr rfl fun i _ => ?_
  simp only [Pi.add_apply, Pi.star_apply, Complex.star_def, Complex.normSq_apply, Complex.add_re, Complex.add_im,
    Complex.mul_re, Complex.conj_re, Complex.conj_im]
  ring

theorem sqLen_smul {m : ℕ} (a : ℝ) (v : Fin m → ℂ) : sqLen ((a : ℂ) • v) = a ^ 2 * sqLen v := by
  simp only [sqLen, Finset.mul_sum, Pi.smul_apply, smul_eq_mul, Complex.normSq_mul, Complex.normSq_ofReal, pow_two]

/-- the next eigenvalue is no further than the dual length of the residual -/
theorem weinstein (hH : H.IsHermitian) (hSh : S.IsHermitian) (hV : Vᴴ * (S * V) = 1)
    (hl : H * V = S * V * diagonal fun i => (l i : ℂ)) (x : Fin N → ℂ)
    (hx : star x ⬝ᵥ (S *ᵥ x) = 1) (t : ℝ) :
    ∃ i, (l i - t) ^ 2 ≤ sqLen (Vᴴ *ᵥ (H *ᵥ x - (t : ℂ) • (S *ᵥ x))) := by
  set a : Fin N → ℂ := Vᴴ *ᵥ (S *ᵥ x) with ha
  have h1 : Vᴴ * H = (diagonal fun i => (l i : ℂ)) * (Vᴴ * S) := by
    have := congrArg conjTranspose hl
    rw [conjTranspose_mul, conjTranspose_mul, conjTranspose_mul, hH.eq, hSh.eq, diagonal_conjTranspose] at this
    rw [this]
    congr 2
    funext i
    simp
  have h2 : Vᴴ *ᵥ (H *ᵥ x - (t : ℂ) • (S *ᵥ x)) = fun i => ((l i - t : ℝ) : ℂ) * a i := by
    rw [mulVec_sub, mulVec_smul, mulVec_mulVec, h1, ← mulVec_mulVec, ← mulVec_mulVec, ← ha]
    funext i
    simp only [Pi.sub_apply, mulVec_diagonal, Pi.smul_apply, smul_eq_mul]
    push_cast
    ring
  have h3 : sqLen a = 1 := by
    have : (sqLen a : ℂ) = 1 := by
      rw [sqLen_eq, ha, dual_pair hV, star_mulVec, hSh.eq, ← dotProduct_mulVec, hx]
    exact_mod_cast this
  have hne : (Finset.univ : Finset (Fin N)).Nonempty := by
    by_contra h
    rw [Finset.not_nonempty_iff_eq_empty] at h
    rw [sqLen, h] at h3
    simp at h3
  obtain ⟨i, -, hi⟩ := Finset.exists_min_image Finset.univ (fun i => (l i - t) ^ 2) hne
  refine ⟨i, ?_⟩
  rw [h2, sqLen]
  calc (l i - t) ^ 2 = (l i - t) ^ 2 * sqLen a := by rw [h3, mul_one]
    _ = ∑ j, (l i - t) ^ 2 * Complex.normSq (a j) := by rw [sqLen, Finset.mul_sum]
    _ ≤ ∑ j, Complex.normSq (((l j - t : ℝ) : ℂ) * a j) := Finset.sum_le_sum fun j hj => by
      rw [Complex.normSq_mul, Complex.normSq_ofReal, ← pow_two]
      exact mul_le_mul_of_nonneg_right (hi j hj) (Complex.normSq_nonneg _)

/-- the dual length is bounded by the length if the overlap is bounded below -/
theorem dual_le {s : ℝ} (hs : 0 ≤ s) (hb : BoundedBelow s S) (hSh : S.IsHermitian) (hV : Vᴴ * (S * V) = 1)
    (r : Fin N → ℂ) : s * sqLen (Vᴴ *ᵥ r) ≤ sqLen r := by
  set z : Fin N → ℂ := V *ᵥ (Vᴴ *ᵥ r) with hz
  have h1 : S *ᵥ z = r := by
    have h2 := congrArg conjTranspose (dual_complete hV)
    rw [conjTranspose_mul, conjTranspose_mul, conjTranspose_conjTranspose, hSh.eq, conjTranspose_one] at h2
    rw [hz, mulVec_mulVec, mulVec_mulVec, h2, one_mulVec]
  have h2 : (sqLen (Vᴴ *ᵥ r) : ℂ) = star r ⬝ᵥ z := by
    rw [sqLen_eq]
    conv_lhs => rw [← h1]
    conv_lhs => enter [1]; rw [h1]
    exact dual_pair hV r z
  have h3 : sqLen (Vᴴ *ᵥ r) = (star r ⬝ᵥ z).re := by rw [← h2, Complex.ofReal_re]
  have h4 : (star z ⬝ᵥ (S *ᵥ z)).re = sqLen (Vᴴ *ᵥ r) := by
    rw [h1, h3, ← Complex.conj_re (star r ⬝ᵥ z), ← Complex.star_def, star_dotProduct]
  have h5 := hb z
  rw [h4] at h5
  have h6 := sqLen_nonneg (r + ((-s : ℝ) : ℂ) • z)
  rw [sqLen_add, sqLen_smul, dotProduct_smul, smul_eq_mul, Complex.re_ofReal_mul, ← h3] at h6
  change s * sqLen z ≤ _ at h5
  nlinarith [mul_le_mul_of_nonneg_left h5 hs]

/-- Pythagoras: a part orthogonal to the orbitals and a part in `S X` -/
theorem dual_add (hSh : S.IsHermitian) (hV : Vᴴ * (S * V) = 1) (hX : SOrtho S X) (g : Fin N → ℂ)
    (hg : Xᴴ *ᵥ g = 0) (c : Fin B → ℂ) :
    sqLen (Vᴴ *ᵥ (g + (S * X) *ᵥ c)) = sqLen (Vᴴ *ᵥ g) + sqLen c := by
  rw [mulVec_add, sqLen_add, ← mulVec_mulVec, dual_pair hV]
  have h1 : star g ⬝ᵥ (X *ᵥ c) = 0 := by
    have h2 := congrArg star hg
    rw [star_mulVec, conjTranspose_conjTranspose, star_zero] at h2
    rw [dotProduct_mulVec, h2, zero_dotProduct]
  have h3 : sqLen (Vᴴ *ᵥ (S *ᵥ (X *ᵥ c))) = sqLen c := by
    have : (sqLen (Vᴴ *ᵥ (S *ᵥ (X *ᵥ c))) : ℂ) = sqLen c := by
      rw [sqLen_eq, dual_pair hV, star_mulVec, star_mulVec, hSh.eq, vecMul_vecMul, ← dotProduct_mulVec, mulVec_mulVec,
        Matrix.mul_assoc, hX, one_mulVec, ← sqLen_eq]
    exact_mod_cast this
  rw [h1, h3]
  simp

/-- one band: its energy is close to an eigenvalue if its residual and its couplings are small -/
theorem band_level (hH : H.IsHermitian) (hS : S.PosDef) {s : ℝ} (hs : 0 < s) (hb : BoundedBelow s S)
    (hX : SOrtho S X) (L : Mat B B) (i : Fin B) (t : ℝ) (ht : (t : ℂ) = (Xᴴ * (H * X)) i i) :
    ∃ x, IsLevel H S x ∧ (x - t) ^ 2 ≤ (∑ a, Complex.normSq ((H * X - S * X * L) a i)) / s
      + ∑ j, if j = i then 0 else Complex.normSq ((Xᴴ * (H * X)) j i) := by
  obtain ⟨V, l, hV, hl⟩ := general_spectral hH hS
  set M : Mat B B := Xᴴ * (H * X) with hM
  set x : Fin N → ℂ := fun a => X a i with hx
  have hcol : ∀ A : Mat N N, (A *ᵥ x) = fun a => (A * X) a i := fun A => rfl
  have hone : star x ⬝ᵥ (S *ᵥ x) = 1 := by
    have := congrFun (congrFun hX i) i
    rw [one_apply_eq] at this
    rw [← this, hcol, mul_apply]
    rfl
  obtain ⟨q, hq⟩ := weinstein hH hS.isHermitian hV hl x hone t
  set g : Fin N → ℂ := fun a => (H * X - S * X * M) a i with hg
  have hg0 : Xᴴ *ᵥ g = 0 := by
    have h1 : Xᴴ * (H * X - S * X * M) = 0 := by
      rw [Matrix.mul_sub, ← Matrix.mul_assoc Xᴴ (S * X), show Xᴴ * (S * X) = 1 from hX, Matrix.one_mul, sub_self]
    funext a
    exact congrFun (congrFun h1 a) i
  have hr : H *ᵥ x - (t : ℂ) • (S *ᵥ x) = g + (S * X) *ᵥ (fun j => if j = i then 0 else M j i) := by
    funext a
    simp only [hcol, hg, Pi.sub_apply, Pi.smul_apply, Pi.add_apply, Matrix.sub_apply, smul_eq_mul, mulVec, dotProduct]
    rw [mul_apply (M := S * X)]
    have h1 : ∑ j, (S * X) a j * M j i = (∑ j, (S * X) a j * (if j = i then 0 else M j i)) + (S * X) a i * M i i := by
      have h2 : ∀ j, (S * X) a j * M j i =
          (S * X) a j * (if j = i then 0 else M j i) + if j = i then (S * X) a j * M j i else 0 := by
        intro j
        split_ifs <;> simp
      rw [Finset.sum_congr rfl fun j _ => h2 j, Finset.sum_add_distrib, Finset.sum_ite_eq' Finset.univ i]
      simp
    rw [h1, ht]
    ring
  have hr' : (fun a => (H * X - S * X * L) a i) = g + (S * X) *ᵥ (fun j => (M - L) j i) := by
    funext a
    have h1 : H * X - S * X * L = (H * X - S * X * M) + S * X * (M - L) := by
      rw [Matrix.mul_sub]; abel
    rw [h1]
    rfl
  rw [hr, dual_add hS.isHermitian hV hX g hg0] at hq
  have h1 := dual_le hs.le hb hS.isHermitian hV fun a => (H * X - S * X * L) a i
  rw [hr', dual_add hS.isHermitian hV hX g hg0, ← hr'] at h1
  refine ⟨l q, ⟨fun a => V a q, ?_, ?_⟩, hq.trans (add_le_add ?_ (le_of_eq ?_))⟩
  · intro h0
    have h2 := congrFun (congrFun hV q) q
    rw [one_apply_eq, ← Matrix.mul_assoc, mul_apply] at h2
    simp only [fun a => congrFun h0 a, Pi.zero_apply, mul_zero, Finset.sum_const_zero] at h2
    exact zero_ne_one h2
  · funext a
    have h2 := congrFun (congrFun hl a) q
    rw [mul_diagonal] at h2
    show (H * V) a q = (l q : ℂ) * (S * V) a q
    rw [h2, mul_comm]
  · rw [le_div_iff₀ hs, mul_comm]
    refine le_trans ?_ h1
    exact mul_le_mul_of_nonneg_left (le_add_of_nonneg_right (sqLen_nonneg _)) hs.le
  · simp only [sqLen]
    refine Finset.sum_congr rfl fun j _ => ?_
    split_ifs <;> simp

end Nlcg
