import Verif.Spec.BandCount
import Verif.Proofs.Density
import Verif.Proofs.Thermo

namespace Nlcg
open Spec Real

variable {K : ℕ} {b d : Fin K → ℕ} {t : SmearType} {T mo : ℝ} {wk : Fin K → ℝ}

theorem ideal_dual_nonneg (ht : Monotonic t) (y : ℝ) : 0 ≤ idealEntropy t y + y * idealFn t y := by
  have h1 := (strong_limits ht y).1
  have h2 : 0 ≤ stiffness t * (0 - idealFn t y) ^ 2 := mul_nonneg (by cases t <;> simp only [stiffness] <;> positivity) (sq_nonneg _)
  linarith

theorem exactFree_tangent (ht : Monotonic t) (hT : 0 < T) (hm : 0 ≤ mo) (hw : ∀ k, 0 ≤ wk k) (e : Bands b) (mu nu : ℝ) :
    nu * exactElectrons t T mo wk e mu - leftOut t T mo wk e nu ≤ exactFreeEnergy t T mo wk e mu := by
  have hkT : (0 : ℝ) < kB * T := mul_pos kB_pos hT
  rw [exactElectrons, leftOut, exactFreeEnergy, Finset.mul_sum, ← Finset.sum_sub_distrib]
  refine Finset.sum_le_sum fun k _ => ?_
  rw [mul_left_comm, ← mul_sub, Finset.mul_sum, ← Finset.sum_sub_distrib]
  refine mul_le_mul_of_nonneg_left (Finset.sum_le_sum fun i _ => ?_) (hw k)
  have h1 := mul_le_mul_of_nonneg_left (mul_le_mul_of_nonneg_left
    (dual_ideal ht ((mu - e k i) / (kB * T)) ((nu - e k i) / (kB * T))) hm) hkT.le
  have hy : kB * T * ((nu - e k i) / (kB * T)) = nu - e k i := mul_div_cancel₀ _ hkT.ne'
  refine le_of_sub_nonneg ((sub_nonneg.2 h1).trans (le_of_eq ?_))
  linear_combination (-(mo * idealFn t ((mu - e k i) / (kB * T)))) * hy

theorem exactFree_dual (hT : 0 < T) (e : Bands b) (mu : ℝ) :
    exactFreeEnergy t T mo wk e mu = mu * exactElectrons t T mo wk e mu - leftOut t T mo wk e mu := by
  have hkT : (0 : ℝ) < kB * T := mul_pos kB_pos hT
  rw [exactElectrons, leftOut, exactFreeEnergy, Finset.mul_sum, ← Finset.sum_sub_distrib]
  refine Finset.sum_congr rfl fun k _ => ?_
  rw [mul_left_comm mu, ← mul_sub]
  congr 1
  rw [Finset.mul_sum, ← Finset.sum_sub_distrib]
  refine Finset.sum_congr rfl fun i _ => ?_
  have hy : kB * T * ((mu - e k i) / (kB * T)) = mu - e k i := mul_div_cancel₀ _ hkT.ne'
  linear_combination (mo * idealFn t ((mu - e k i) / (kB * T))) * hy

theorem leftOut_more (e : Bands b) (more : Bands d) (mu : ℝ) :
    leftOut t T mo wk (withBands e more) mu = leftOut t T mo wk e mu + leftOut t T mo wk more mu := by
  simp only [leftOut]
  rw [← Finset.sum_add_distrib]
  refine Finset.sum_congr rfl fun k _ => ?_
  rw [Fin.sum_univ_add, mul_add]
  simp only [withBands, Fin.append_left, Fin.append_right]

theorem leftOut_nonneg (ht : Monotonic t) (hT : 0 < T) (hm : 0 ≤ mo) (hw : ∀ k, 0 ≤ wk k) (more : Bands d) (mu : ℝ) :
    0 ≤ leftOut t T mo wk more mu :=
  Finset.sum_nonneg fun k _ => mul_nonneg (hw k) (Finset.sum_nonneg fun _ _ =>
    mul_nonneg (mul_pos kB_pos hT).le (mul_nonneg hm (ideal_dual_nonneg ht _)))

end Nlcg
