import Verif.Proofs.SlopeDeriv
import Verif.Props.Descent

/-!
# The slope as derivative of the free energy along the search path: helper lemmas
-/

namespace Nlcg
open Matrix Spec Filter Topology ComplexOrder

section algebra
variable {N : ℕ} {n : Fin N → ℕ}

/-- Diagonal part: the chemical potential is eliminated by charge conservation. -/
theorem eta_diag_sum (t : SmearType) (ht : t ≠ .cold) (T mo : ℝ) (hT : 0 < T) (w : Fin N → ℝ)
    (e h f d : Bands n) (hij : (k : Fin N) → Matrix (Fin (n k)) (Fin (n k)) ℂ)
    (hdiag : ∀ k i, hij k i i = ((w k * h k i : ℝ) : ℂ)) (mu m' : ℝ)
    (hD : 1 / 10 ^ 12 ≤ |dmuDeta (smearFns t) e w mu T mo|)
    (hc : ∑ k, w k * ∑ i, (smearFns t).delta ((mu - e k i) / (kB * T)) mo * (m' - d k i) = 0) :
    (∑ k, w k * ∑ i, (smearFns t).delta ((mu - e k i) / (kB * T)) mo
      * (m' - d k i) * (h k i - e k i)) / (kB * T)
    = ∑ k, ∑ i, (gEta (smearFns t) T (hij k) mu (w k) (e k) (f k) (dmuDeta (smearFns t) e w mu T mo)
    (dFdmu (smearFns t) h e w mu T mo) mo i i).re * d k i := by
  have hkT : (kB : ℝ) * T ≠ 0 := (mul_pos kB_pos hT).ne'
  have hg := fun k i => gEta_diag t ht T (hij k) mu (w k) (e k) (f k) (h k)
    (dmuDeta (smearFns t) e w mu T mo) (dFdmu (smearFns t) h e w mu T mo) mo i (hdiag k i)
  simp only [hg, Complex.ofReal_re, if_neg (not_lt.2 hD)]
  rw [dmuDeta_eq t ht] at hD ⊢
  have hD0 : deltaSum t T mo w e mu ≠ 0 := by
    intro h0; rw [h0, abs_zero] at hD; norm_num at hD
  rw [dFdmu_eq t ht]
  have hm' : m' * deltaSum t T mo w e mu
      = ∑ k, w k * ∑ i, (smearFns t).delta ((mu - e k i) / (kB * T)) mo * d k i := by
    rw [← sub_eq_zero, ← hc, deltaSum, Finset.mul_sum, ← Finset.sum_sub_distrib]
    refine Finset.sum_congr rfl fun k _ => ?_
    rw [mul_left_comm, ← mul_sub, Finset.mul_sum, ← Finset.sum_sub_distrib]
    congr 1
    exact Finset.sum_congr rfl fun i _ => by ring
  have hm'' : m' = (∑ k, w k * ∑ i, (smearFns t).delta ((mu - e k i) / (kB * T)) mo * d k i)
      / deltaSum t T mo w e mu := by rw [← hm', mul_div_cancel_right₀ _ hD0]
  obtain ⟨F, hF⟩ : ∃ F, F = ∑ k, w k * ∑ i, (smearFns t).delta ((mu - e k i) / (kB * T)) mo
    * (h k i - e k i) := ⟨_, rfl⟩
  rw [← hF]
  have hsplit : (∑ k, w k * ∑ i, (smearFns t).delta ((mu - e k i) / (kB * T)) mo * (m' - d k i)
      * (h k i - e k i)) = m' * F - ∑ k, w k * ∑ i,
        (smearFns t).delta ((mu - e k i) / (kB * T)) mo * d k i * (h k i - e k i) := by
    rw [hF, Finset.mul_sum, ← Finset.sum_sub_distrib]
    refine Finset.sum_congr rfl fun k _ => ?_
    rw [mul_left_comm, ← mul_sub, Finset.mul_sum (a := m'), ← Finset.sum_sub_distrib]
    congr 1
    exact Finset.sum_congr rfl fun i _ => by ring
  rw [hsplit, hm'']
  simp only [Finset.mul_sum, Finset.sum_mul, Finset.sum_div, ← Finset.sum_sub_distrib]
  refine Finset.sum_congr rfl fun k _ => Finset.sum_congr rfl fun i _ => ?_
  generalize (smearFns t).delta ((mu - e k i) / (kB * T)) mo = δ
  generalize (kB : ℝ) * T = c at hkT ⊢
  field_simp
  ring

/-- energy and entropy terms of the diagonal -/
theorem diag_total (c mu m' : ℝ) (hc0 : c ≠ 0) (w : Fin N → ℝ) (e h d δ : Bands n)
    (hc : ∑ k, w k * ∑ i, δ k i * (m' - d k i) = 0) :
    ∑ k, w k * ∑ i, h k i * (δ k i * ((m' - d k i) / c))
      + -c * ∑ k, w k * ∑ i, -((mu - e k i) / c) * δ k i * ((m' - d k i) / c)
    = (∑ k, w k * ∑ i, δ k i * (m' - d k i) * (h k i - e k i)) / c := by
  have hz : ∑ k, w k * ∑ i, δ k i * (m' - d k i) * mu = 0 := by
    simp only [← Finset.sum_mul, ← mul_assoc]
    rw [hc, zero_mul]
  rw [eq_div_iff hc0]
  refine Eq.symm ((add_zero _).symm.trans ((congrArg (_ + ·) hz.symm).trans ?_))
  rw [Finset.mul_sum, ← Finset.sum_add_distrib, ← Finset.sum_add_distrib, Finset.sum_mul]
  refine Finset.sum_congr rfl fun k _ => ?_
  rw [← mul_add, ← Finset.sum_add_distrib, mul_left_comm (-c), ← mul_add, Finset.mul_sum (a := -c),
    ← Finset.sum_add_distrib, mul_assoc, Finset.sum_mul]
  congr 1
  refine Finset.sum_congr rfl fun i _ => ?_
  generalize δ k i = D
  field_simp
  ring

end algebra

section point
variable {N B : ℕ}

theorem densityMat_hermitian (X : Mat N B) (f : Fin B → ℝ) : (densityMat X f).IsHermitian := by
  have h := rdiag_conj f
  rw [rdiag] at h
  rw [IsHermitian, densityMat, conjTranspose_mul, conjTranspose_mul, conjTranspose_conjTranspose, h,
    Matrix.mul_assoc]

/-- the energy's rate of change, in terms of the orbital direction and the change of the occupations -/
theorem trace_split {H : Mat N N} (hH : H.IsHermitian) (X Z : Mat N B) (f : Fin B → ℝ) (G : Mat B B) :
    (H * (Z * rdiag f * Xᴴ + X * G * Xᴴ + X * rdiag f * Zᴴ)).trace.re
      = 2 * rdot (H * X * rdiag f) Z + ∑ i, ∑ j, (star ((Xᴴ * (H * X)) i j) * G i j).re := by
  have h1 : (H * (Z * rdiag f * Xᴴ)).trace.re = rdot (H * X * rdiag f) Z := by
    rw [rdot, conjTranspose_mul, conjTranspose_mul, rdiag_conj, hH.eq, trace_mul_comm]
    congr 1
    rw [Matrix.mul_assoc, Matrix.mul_assoc, trace_mul_comm]
  have h2 : (H * (X * rdiag f * Zᴴ)).trace.re = rdot (H * X * rdiag f) Z := by
    rw [rdot_comm, rdot, trace_mul_comm Zᴴ]
    simp only [Matrix.mul_assoc]
  have h3 : (H * (X * G * Xᴴ)).trace = ((Xᴴ * (H * X))ᴴ * G).trace := by
    rw [conjTranspose_mul, conjTranspose_mul, conjTranspose_conjTranspose, hH.eq, Matrix.mul_assoc Xᴴ,
      Matrix.mul_assoc Xᴴ, trace_mul_comm Xᴴ]
    simp only [Matrix.mul_assoc]
  have h4 : (H * (X * G * Xᴴ)).trace.re = ∑ i, ∑ j, (star ((Xᴴ * (H * X)) i j) * G i j).re := by
    rw [h3, Finset.sum_comm]; exact rdot_sum _ _
  rw [Matrix.mul_add, Matrix.mul_add, trace_add, trace_add, Complex.add_re, Complex.add_re, h1, h2, h4]
  ring

theorem sum_diag_off (A : Fin B → Fin B → ℝ) :
    ∑ i, ∑ j, A i j = ∑ i, A i i + ∑ i, ∑ j, if i = j then 0 else A i j := by
  rw [← Finset.sum_add_distrib]
  refine Finset.sum_congr rfl fun i _ => ?_
  have : ∀ j, A i j = (if i = j then A i i else 0) + if i = j then 0 else A i j := by
    intro j
    split_ifs with h
    · rw [h, add_zero]
    · rw [zero_add]
  rw [Finset.sum_congr rfl fun j _ => this j, Finset.sum_add_distrib]
  simp

/-- an off-diagonal pair -/
theorem pair_off (sf : SmearFns ℝ) (T : ℝ) (hT : 0 < T) (mo mu w m' : ℝ) (h Z : Mat B B)
    (e f : Fin B → ℝ) (dmu dF : ℝ) (hf : ∀ i, f i = sf.fn ((mu - e i) / (kB * T)) mo) (i j : Fin B)
    (hij : i ≠ j) :
    w * (star (h i j) * ddMat (fun x => sf.fn x mo) (fun i => (mu - e i) / (kB * T))
      ((((kB * T)⁻¹ : ℝ) : ℂ) • (((m' : ℝ) : ℂ) • (1 : Mat B B) - Z)) i j).re
    = (star (gEta sf T ((w : ℂ) • h) mu w e f dmu dF mo i j) * Z i j).re
      + if |e j - e i| < 1 / 10 ^ 10 then
          -(w / (kB * T)) * dslope (fun x => sf.fn x mo) ((mu - e i) / (kB * T))
            ((mu - e j) / (kB * T)) * (star (h i j) * Z i j).re
        else 0 := by
  have hkT : (kB : ℝ) * T ≠ 0 := (mul_pos kB_pos hT).ne'
  have h1 : (star (h i j) * ddMat (fun x => sf.fn x mo) (fun i => (mu - e i) / (kB * T))
      ((((kB * T)⁻¹ : ℝ) : ℂ) • (((m' : ℝ) : ℂ) • (1 : Mat B B) - Z)) i j).re
      = -(dslope (fun x => sf.fn x mo) ((mu - e i) / (kB * T)) ((mu - e j) / (kB * T)) / (kB * T))
        * (star (h i j) * Z i j).re := by
    rw [← Complex.re_ofReal_mul]
    congr 1
    simp only [ddMat, Matrix.smul_apply, Matrix.sub_apply, one_apply_ne hij, smul_eq_mul, mul_zero,
      zero_sub]
    push_cast
    ring
  rw [h1, gEta, if_neg hij]
  split_ifs with hs
  · rw [star_zero, zero_mul, Complex.zero_re]; ring
  · have hne : e j ≠ e i := by
      intro h0; apply hs; rw [h0, sub_self, abs_zero]; norm_num
    have hd : dslope (fun x => sf.fn x mo) ((mu - e i) / (kB * T)) ((mu - e j) / (kB * T)) / (kB * T)
        = -((f j - f i) / (e j - e i)) := by
      have hx : (mu - e j) / (kB * T) ≠ (mu - e i) / (kB * T) := by
        intro h0
        apply hne
        have := (div_left_inj' hkT).1 h0
        linarith
      rw [dslope_of_ne _ hx, slope_def_field, hf i, hf j]
      have h2 : e j - e i ≠ 0 := sub_ne_zero.2 hne
      have h3 : (mu - e j) / (kB * T) - (mu - e i) / (kB * T) = -((e j - e i) / (kB * T)) := by ring
      rw [h3]
      generalize sf.fn ((mu - e j) / (kB * T)) mo = F
      generalize sf.fn ((mu - e i) / (kB * T)) mo = G
      generalize e j - e i = D at h2 ⊢
      generalize (kB : ℝ) * T = c at hkT ⊢
      field_simp
    rw [hd, star_mul', add_zero]
    rw [show star ((((f j - f i) / (e j - e i) : ℝ)) : ℂ) = (((f j - f i) / (e j - e i) : ℝ) : ℂ)
      from Complex.conj_ofReal _, Matrix.smul_apply, smul_eq_mul, star_mul', show star ((w : ℝ) : ℂ)
      = ((w : ℝ) : ℂ) from Complex.conj_ofReal _, mul_assoc, mul_assoc, Complex.re_ofReal_mul,
      Complex.re_ofReal_mul]
    ring

/-- a diagonal entry -/
theorem pair_diag (fn : ℝ → ℝ) (c mu m' δ hii : ℝ) (h Z : Mat B B) (e : Fin B → ℝ) (i : Fin B)
    (hh : h i i = (hii : ℂ)) (hd : HasDerivAt fn δ ((mu - e i) / c)) :
    (star (h i i) * ddMat fn (fun i => (mu - e i) / c)
      (((c⁻¹ : ℝ) : ℂ) • (((m' : ℝ) : ℂ) • (1 : Mat B B) - Z)) i i).re
    = hii * (δ * ((m' - (Z i i).re) / c)) := by
  rw [hh, show star ((hii : ℝ) : ℂ) = ((hii : ℝ) : ℂ) from Complex.conj_ofReal _, Complex.re_ofReal_mul,
    ddMat, dslope_same, hd.deriv, Complex.re_ofReal_mul]
  simp only [Matrix.smul_apply, Matrix.sub_apply, one_apply_eq, smul_eq_mul, mul_one,
    Complex.re_ofReal_mul, Complex.sub_re, Complex.ofReal_re]
  rw [div_eq_inv_mul]

end point

end Nlcg
