import Verif.Model.Smearing
import Mathlib.MeasureTheory.Integral.IntervalIntegral.FundThmCalculus
import Mathlib.Analysis.SpecialFunctions.Gaussian.GaussianIntegral
import Mathlib.Analysis.Calculus.Deriv.MeanValue
import Mathlib.MeasureTheory.Integral.IntegralEqImproper

/-! The error function. -/

namespace Nlcg
open Real MeasureTheory

theorem continuous_gauss : Continuous fun t : ℝ => exp (-t ^ 2) := by fun_prop

theorem hasDerivAt_erf (x : ℝ) : HasDerivAt erf (2 / √π * exp (-x ^ 2)) x := by
  have h := intervalIntegral.integral_hasDerivAt_right (a := 0) (b := x)
    (f := fun t : ℝ => exp (-t ^ 2)) (continuous_gauss.intervalIntegrable _ _)
    (continuous_gauss.stronglyMeasurableAtFilter _ _) continuous_gauss.continuousAt
  exact h.const_mul (2 / √π)

theorem hasDerivAt_erfc (x : ℝ) : HasDerivAt erfc (-(2 / √π * exp (-x ^ 2))) x := by
  have := (hasDerivAt_erf x).const_sub 1
  exact this

theorem erf_neg (x : ℝ) : erf (-x) = -erf x := by
  rw [erf, erf, ← mul_neg]
  congr 1
  rw [← intervalIntegral.integral_symm]
  have := intervalIntegral.integral_comp_neg (fun t : ℝ => exp (-t ^ 2)) (a := 0) (b := -x)
  simp at this
  rw [this]

theorem erf_zero : erf 0 = 0 := by simp [erf]

theorem sqrtpi_pos : 0 < √π := sqrt_pos.2 pi_pos

theorem erf_strictMono : StrictMono erf := by
  apply strictMono_of_deriv_pos
  intro x
  rw [(hasDerivAt_erf x).deriv]
  have := sqrtpi_pos
  positivity

theorem erf_mono : Monotone erf := erf_strictMono.monotone

theorem tendsto_erf_atTop : Filter.Tendsto erf Filter.atTop (nhds 1) := by
  have hi : IntegrableOn (fun t : ℝ => exp (-1 * t ^ 2)) (Set.Ioi 0) :=
    (integrable_exp_neg_mul_sq one_pos).integrableOn
  have h := intervalIntegral_tendsto_integral_Ioi (μ := volume) 0 hi Filter.tendsto_id
  rw [integral_gaussian_Ioi] at h
  have h2 := h.const_mul (2 / √π)
  have e : 2 / √π * (√(π / 1) / 2) = 1 := by
    rw [div_one]; have := sqrtpi_pos.ne'; field_simp
  rw [e] at h2
  refine h2.congr fun x => ?_
  simp [erf]

theorem erf_lt_one (x : ℝ) : erf x < 1 := by
  have h1 : erf x < erf (x + 1) := erf_strictMono (by linarith)
  have h2 : erf (x + 1) ≤ 1 := erf_mono.ge_of_tendsto tendsto_erf_atTop _
  linarith

theorem neg_one_lt_erf (x : ℝ) : -1 < erf x := by
  have := erf_lt_one (-x)
  rw [erf_neg] at this
  linarith

theorem erfc_pos (x : ℝ) : 0 < erfc x := by
  have := erf_lt_one x
  rw [erfc]; linarith

theorem tendsto_erf_atBot : Filter.Tendsto erf Filter.atBot (nhds (-1)) := by
  have h := (tendsto_erf_atTop.comp Filter.tendsto_neg_atBot_atTop).neg
  refine h.congr fun x => ?_
  simp [erf_neg]

end Nlcg
