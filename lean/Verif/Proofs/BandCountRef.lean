import Verif.Proofs.BandCount
import Verif.Proofs.Sensitive

namespace Nlcg
open Spec Real

/-- the lower bound of Mills' kind, with what is missing -/
noncomputable def tailGap (y : ℝ) : ℝ := erfc y - 2 * y / (2 * y ^ 2 + 1) * (exp (-y ^ 2) / √π)

theorem tailGap_deriv (y : ℝ) : HasDerivAt tailGap (-(4 / (2 * y ^ 2 + 1) ^ 2 * (exp (-y ^ 2) / √π))) y := by
  have hp := sqrtpi_pos
  have h0 : (2 * y ^ 2 + 1 : ℝ) ≠ 0 := by positivity
  have h1 : HasDerivAt (fun y : ℝ => exp (-y ^ 2)) (exp (-y ^ 2) * -(2 * y)) y := by
    have := ((hasDerivAt_pow 2 y).neg).exp
    simpa using this
  have h2 : HasDerivAt (fun y : ℝ => 2 * y) 2 y := by simpa using (hasDerivAt_id y).const_mul 2
  have h3 : HasDerivAt (fun y : ℝ => 2 * y ^ 2 + 1) (4 * y) y := by
    have := ((hasDerivAt_pow 2 y).const_mul 2).add_const 1
    refine this.congr_deriv ?_
    norm_num
    ring
  have h4 := (hasDerivAt_erfc y).sub ((h2.div h3 h0).mul (h1.div_const √π))
  refine h4.congr_deriv ?_
  simp only [Pi.div_apply]
  field_simp
  ring

theorem tailGap_tendsto : Filter.Tendsto tailGap Filter.atTop (nhds 0) := by
  have h1 : Filter.Tendsto (fun y : ℝ => 2 * y / (2 * y ^ 2 + 1) * (exp (-y ^ 2) / √π)) Filter.atTop (nhds 0) := by
    refine squeeze_zero' (g := fun y => exp (-y)) ?_ ?_ tendsto_exp_neg_atTop_nhds_zero
    · filter_upwards [Filter.eventually_gt_atTop 0] with y hy
      have := sqrtpi_pos
      positivity
    · filter_upwards [Filter.eventually_ge_atTop 1] with y hy
      have e1 : 2 * y / (2 * y ^ 2 + 1) ≤ 1 := by
        rw [div_le_one (by positivity)]
        nlinarith
      have e2 : exp (-y ^ 2) / √π ≤ exp (-y) :=
        (div_le_self (exp_pos _).le one_le_sqrtpi).trans (exp_le_exp.2 (by nlinarith))
      have e3 : 0 ≤ exp (-y ^ 2) / √π := div_nonneg (exp_pos _).le sqrtpi_pos.le
      exact (mul_le_of_le_one_left e3 e1).trans e2
  have h2 := tendsto_erfc.sub h1
  rw [sub_zero] at h2
  exact h2

theorem tailGap_pos (y : ℝ) : 0 < tailGap y := by
  have hneg : ∀ x, -(4 / (2 * x ^ 2 + 1) ^ 2 * (exp (-x ^ 2) / √π)) < 0 := fun x => by
    have := sqrtpi_pos
    rw [neg_lt_zero]
    positivity
  have h1 := nonneg_of_deriv_nonpos (a := y + 1) (x := y + 1) (fun x _ => tailGap_deriv x) (fun x _ => (hneg x).le)
    tailGap_tendsto le_rfl
  have h2 := strictAnti_of convex_univ (fun x _ => tailGap_deriv x) (fun x _ => hneg x) (Set.mem_univ y)
    (Set.mem_univ (y + 1)) (by linarith)
  linarith

/-- a level above the chemical potential that is empty and has a negative entropy -/
theorem mp_empty : ∃ x : ℝ, 0 < x ∧ idealFn .methfesselPaxton (-x) = 0 ∧ idealEntropy .methfesselPaxton (-x) < 0 := by
  have hp := sqrtpi_pos
  have hf : ∀ x, idealFn .methfesselPaxton (-x) = (erfc x - x * (exp (-x ^ 2) / √π)) / 2 := fun x => by
    simp only [idealFn, erf_neg, erfc, neg_sq]
    field_simp
    ring
  have hc : Continuous fun x : ℝ => erfc x - x * (exp (-x ^ 2) / √π) := by
    have h1 : Continuous erfc := continuous_iff_continuousAt.2 fun x => (hasDerivAt_erfc x).continuousAt
    fun_prop
  have hs : (√(1 / 2) : ℝ) ^ 2 = 1 / 2 := sq_sqrt (by norm_num)
  have hs0 : (0 : ℝ) < √(1 / 2) := sqrt_pos.2 (by norm_num)
  have hs1 : √(1 / 2 : ℝ) ≤ 2 := by nlinarith
  have h1 : 0 < erfc √(1 / 2) - √(1 / 2) * (exp (-√(1 / 2) ^ 2) / √π) := by
    have := tailGap_pos √(1 / 2)
    rw [tailGap, hs] at this
    rw [hs]
    convert this using 3
    ring
  have h2 : erfc 2 - 2 * (exp (-2 ^ 2) / √π) < 0 := by
    have h3 := erfc_le_mills (x := 2) two_pos
    have h4 : exp (-2 ^ 2) / (2 * √π) = 1 / 2 * (exp (-2 ^ 2) / √π) := by field_simp
    have h5 : 0 < exp (-2 ^ 2) / √π := div_pos (exp_pos _) hp
    linarith
  obtain ⟨x, hx, hx0⟩ := intermediate_value_Ioo' hs1 hc.continuousOn ⟨h2, h1⟩
  refine ⟨x, hs0.trans hx.1, ?_, ?_⟩
  · rw [hf]
    simp only at hx0
    rw [hx0, zero_div]
  · have h6 : 1 / 2 < x ^ 2 := by
      rw [← hs]
      exact pow_lt_pow_left₀ hx.1 hs0.le two_ne_zero
    simp only [idealEntropy, neg_sq]
    refine div_neg_of_neg_of_pos (mul_neg_of_neg_of_pos (by linarith) (exp_pos _)) (by positivity)

end Nlcg
