import Verif.Proofs.Smearing
import Verif.Proofs.GradEta
import Verif.Spec.EntropyPeak
import Mathlib.Analysis.Calculus.Deriv.MeanValue
import Mathlib.Analysis.Complex.ExponentialBounds

/-! The entropy functions are largest at the Fermi level. -/

namespace Nlcg
open Real Spec

/-- a function with the derivative `-x g(x)`, `g ≥ 0`, is largest at 0 -/
theorem le_at_zero {f g : ℝ → ℝ} (hd : ∀ x, HasDerivAt f (-x * g x) x) (hg : ∀ x, 0 ≤ g x) (x : ℝ) :
    f x ≤ f 0 := by
  have hc : Continuous f := continuous_iff_continuousAt.2 fun y => (hd y).continuousAt
  rcases le_total x 0 with h | h
  · have := monotoneOn_of_deriv_nonneg (convex_Iic 0) hc.continuousOn
      (fun y _ => (hd y).differentiableAt.differentiableWithinAt) (fun y hy => by
        rw [interior_Iic] at hy
        rw [(hd y).deriv]
        exact mul_nonneg (by linarith [Set.mem_Iio.1 hy]) (hg y))
    exact this h (Set.mem_Iic.2 le_rfl) h
  · have := antitoneOn_of_deriv_nonpos (convex_Ici 0) hc.continuousOn
      (fun y _ => (hd y).differentiableAt.differentiableWithinAt) (fun y hy => by
        rw [interior_Ici] at hy
        rw [(hd y).deriv]
        exact mul_nonpos_of_nonpos_of_nonneg (by linarith [Set.mem_Ioi.1 hy]) (hg y))
    exact this (Set.mem_Ici.2 le_rfl) h h

theorem fdEntropy_le (x : ℝ) {mo : ℝ} (h : 0 ≤ mo) : fdEntropy x mo ≤ mo * log 2 := by
  have h2 : (0 : ℝ) ≤ log 2 := log_nonneg (by norm_num)
  rw [fdEntropy]
  split_ifs
  · positivity
  · have := le_at_zero (g := fun x => mo * exp x / (1 + exp x) ^ 2)
      (fun y => hasDerivAt_fdEntropyMid y mo) (fun y => by positivity) x
    refine this.trans (le_of_eq ?_)
    norm_num

theorem exp_half_sqrtpi : exp 0.5 * √π = √(exp 1 * π) := by
  rw [sqrt_mul (exp_pos 1).le, ← exp_half]
  norm_num

theorem gsEntropy_le (x mo : ℝ) : gsEntropy x mo ≤ peak .gaussianSpline := by
  have hc := erfc_pos (1 / √2)
  rw [gsEntropy]
  split_ifs with h h0
  · rw [peak]; positivity
  all_goals
    have := le_at_zero (g := fun x => if x ≤ 0 then 0.5 * exp ((√2 - x) * x) * (√2 - 2 * x)
      else 0.5 * exp (-x * (√2 + x)) * (√2 + 2 * x))
      (fun y => by
        have := hasDerivAt_gsEntropyMid y
        rwa [← mul_ite] at this) (fun y => by
        have hs := sqrt_nonneg (2 : ℝ)
        beta_reduce
        split_ifs with hy
        · have : 0 ≤ √2 - 2 * y := by linarith
          positivity
        · have : 0 ≤ √2 + 2 * y := by linarith
          positivity) x
    beta_reduce at this
    rw [if_pos (le_refl (0 : ℝ))] at this
  · rw [if_neg (by linarith)] at this
    refine this.trans (le_of_eq ?_)
    rw [peak, exp_half_sqrtpi]
    norm_num
    ring
  · rw [if_pos (by linarith)] at this
    refine this.trans (le_of_eq ?_)
    rw [peak, exp_half_sqrtpi]
    norm_num
    ring

theorem gaussEntropy_le (x : ℝ) {mo : ℝ} (h : 0 ≤ mo) : gaussEntropy x mo ≤ mo * peak .gauss := by
  have e1 : exp (-x * x) ≤ 1 := exp_le_one_iff.2 (by nlinarith [mul_self_nonneg x])
  have hp : 0 < √π := sqrtpi_pos
  rw [gaussEntropy, peak, show mo * (1 / (2 * √π)) = mo / 2 * 1 / √π by field_simp]
  gcongr

theorem mpEntropy_le (x : ℝ) {mo : ℝ} (h : 0 ≤ mo) : |mpEntropy x mo| ≤ mo * peak .methfesselPaxton := by
  have hp : 0 < √π := sqrtpi_pos
  have he := exp_pos (-(x * x))
  have hq : 0 ≤ x * x := mul_self_nonneg x
  have e1 : exp (-(x * x)) ≤ 1 := exp_le_one_iff.2 (by linarith)
  have e0 : exp (-(x * x)) * (2 * (x * x) - 1) ≤ 1 := by
    have := quadratic_le_exp_of_nonneg hq
    rw [exp_neg, inv_mul_le_iff₀ (exp_pos _)]
    nlinarith [sq_nonneg (x * x - 1)]
  have e2 : |exp (-(x * x)) * (1 - 2 * (x * x))| ≤ 1 := by
    rw [abs_le]; constructor <;> nlinarith
  rw [mpEntropy, peak, show mo * (1 / (4 * √π)) = mo * 1 / 4 / √π by field_simp]
  simp only [mul_assoc]
  rw [abs_div, abs_div, abs_mul, abs_of_pos hp, abs_of_nonneg h, abs_of_pos (by norm_num : (0:ℝ) < 4)]
  gcongr

theorem coldEntropy_le (x : ℝ) {mo : ℝ} (h : 0 ≤ mo) : |coldEntropy x mo| ≤ mo * peak .cold := by
  have hp : 0 < √π := sqrtpi_pos
  have h0 : 0 ≤ mo * peak .cold := by rw [peak]; positivity
  rw [coldEntropy]
  split_ifs
  · rwa [abs_zero]
  · rwa [abs_zero]
  · set z := x - 1 / √2 with hz
    have hs : (0 : ℝ) < √2 := by positivity
    have e : 1 - √2 * x = -(√2 * z) := by
      rw [hz]; field_simp; ring
    have key : exp (-z * z) * (√2 * |z|) ≤ exp (-(1 / 2)) := by
      have h1 : √2 * |z| ≤ 1 / 2 + z * z := by
        have h3 := sq_nonneg (√2 * |z| - 1)
        have h4 : (√2 * |z|) ^ 2 = 2 * (z * z) := by
          rw [mul_pow, sq_abs, sq_sqrt (by norm_num)]; ring
        nlinarith
      have h2 : 1 / 2 + z * z ≤ exp (z * z - 1 / 2) := by
        have := add_one_le_exp (z * z - 1 / 2); linarith
      calc exp (-z * z) * (√2 * |z|) ≤ exp (-z * z) * exp (z * z - 1 / 2) := by
            gcongr; exact h1.trans h2
        _ = exp (-(1 / 2)) := by rw [← exp_add]; ring_nf
    have e3 : peak .cold = exp (-(1 / 2)) / 2 / √π := by
      rw [peak, ← exp_half_sqrtpi, exp_neg]
      norm_num
      ring
    simp only []
    rw [e3, e, show mo * exp (-z * z) * -(√2 * z) / 2 / √π = mo * (-(exp (-z * z) * (√2 * z)) / 2 / √π) by
      ring, abs_mul, abs_of_nonneg h]
    refine mul_le_mul_of_nonneg_left ?_ h
    rw [abs_div, abs_div, abs_of_pos hp, abs_of_pos (by norm_num : (0:ℝ) < 2), abs_neg, abs_mul,
      abs_mul, abs_of_pos hs, abs_of_pos (exp_pos _)]
    gcongr

end Nlcg
