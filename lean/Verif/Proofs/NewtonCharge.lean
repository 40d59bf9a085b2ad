import Verif.Proofs.InsulatorRef

/-! A system for which Newton's method accepts a chemical potential with the wrong charge. -/

namespace Nlcg
open Real Spec Arith

/-- the cold occupation, without cut-offs, decreases beyond its maximum at `√2` -/
theorem cold_mid_anti (mo : ℝ) (hmo : 0 < mo) :
    StrictAntiOn (fun x => mo * (exp (-0.5 + (√2 - x) * x) / √2 / √π + 0.5 * erfc (1 / √2 - x))) (Set.Ici √2) := by
  have hp := sqrtpi_pos
  apply strictAntiOn_of_deriv_neg (convex_Ici _)
  · exact fun y _ => (hasDerivAt_coldMid y mo).continuousAt.continuousWithinAt
  · intro y hy
    rw [interior_Ici, Set.mem_Ioi] at hy
    rw [(hasDerivAt_coldMid y mo).deriv]
    have h2 := sqrt2_sq
    have h0 : 0 < √(2 : ℝ) := by positivity
    have hneg : 2 - √2 * y < 0 := by nlinarith
    have he := exp_pos (-(y - 1 / √2) * (y - 1 / √2))
    exact div_neg_of_neg_of_pos (mul_neg_of_pos_of_neg (by positivity) hneg) hp

theorem erfc_lt_two (x : ℝ) : erfc x < 2 := by
  have := erfc_pos (-x)
  rw [erfc, erf_neg] at this
  rw [erfc]
  linarith

theorem sqrt2pi_ge : 2 ≤ √2 * √π := by
  rw [← sqrt_mul (by norm_num)]
  refine le_sqrt_of_sq_le ?_
  linarith [pi_gt_three]

/-- where the deltas of levels above and below the chemical potential cancel -/
theorem exists_balanced : ∃ u : ℝ, 2 < u ∧ u < 2.1 ∧ exp (2 * u) * (2 - u) + (2 + u) = 0 := by
  have hc : ContinuousOn (fun u : ℝ => exp (2 * u) * (2 - u) + (2 + u)) (Set.Icc 2 2.1) := by fun_prop
  have h1 : exp (2 * 2.1) * (2 - 2.1) + (2 + 2.1) < 0 := by
    have h : exp 4 ≤ exp (2 * 2.1) := exp_le_exp.2 (by norm_num)
    have h4 : exp 4 = exp 1 ^ 4 := by rw [← exp_nat_mul]; norm_num
    have h5 : (2.7 : ℝ) ^ 4 ≤ exp 1 ^ 4 := pow_le_pow_left₀ (by norm_num) (by linarith [exp_one_gt_d9]) 4
    have h6 : (53 : ℝ) ≤ 2.7 ^ 4 := by norm_num
    have h7 : 53 ≤ exp (2 * 2.1) := by linarith
    linarith
  have h2 : 0 < exp (2 * 2) * (2 - 2) + ((2 : ℝ) + 2) := by norm_num
  obtain ⟨u, hu, he⟩ := intermediate_value_Ioo' (by norm_num) hc ⟨h1, h2⟩
  exact ⟨u, hu.1, hu.2, he⟩

/-- what the two levels contribute to the count and its derivatives -/
structure Balanced (a : ℝ) : Prop where
  range : 0 < a ∧ a ≤ 2
  count : 2 + 1 / 90 ≤ coldFn a 2 + coldFn (-a) 2 ∧ coldFn a 2 + coldFn (-a) 2 ≤ 6
  delta : coldDelta a 2 + coldDelta (-a) 2 = 0
  dxdelta : coldDxdelta a 2 + coldDxdelta (-a) 2 ≤ -1 / 10

theorem balanced_exists : ∃ a, Balanced a := by
  obtain ⟨u, h1, h2, he⟩ := exists_balanced
  have hs2 := sqrt2_sq
  have hs0 : 0 < √(2 : ℝ) := by positivity
  have hs1 : 1.4 ≤ √(2 : ℝ) := by rw [le_sqrt' (by norm_num)]; norm_num
  have hs3 : √(2 : ℝ) ≤ 1.5 := by rw [sqrt_le_left (by norm_num)]; norm_num
  have hinv : 1 / √(2 : ℝ) = √2 / 2 := by field_simp; linarith
  have hp := sqrtpi_pos
  have hp1 := one_le_sqrtpi
  have hp2 := sqrtpi_le_two
  obtain ⟨a, ha⟩ : ∃ a, a = u / √2 := ⟨_, rfl⟩
  have hu : u = √2 * a := by rw [ha]; field_simp
  have ha1 : √2 < a := by nlinarith
  have ha2 : a ≤ 1.5 := by nlinarith
  refine ⟨a, ⟨by linarith, by linarith⟩, ⟨?_, ?_⟩, ?_, ?_⟩
  · have h3 : coldFn 2 2 ≤ coldFn a 2 := by
      rw [coldFn, if_neg (by norm_num), if_neg (by norm_num), coldFn, if_neg (by linarith), if_neg (by linarith)]
      exact (cold_mid_anti 2 two_pos).antitoneOn ha1.le (by simp only [Set.mem_Ici]; linarith) (by linarith)
    have h4 : 0 ≤ coldFn (-a) 2 := by
      rw [coldFn, if_neg (by linarith), if_neg (by linarith)]
      have := erfc_pos (1 / √2 - -a)
      positivity
    have h5 := cold_overfills.above.1
    change 2 + 1 / 90 ≤ coldFn 2 2 at h5
    linarith
  · have key : ∀ x, x ≤ 8 → -8 ≤ x → coldFn x 2 ≤ 3 := by
      intro x hx hx'
      rw [coldFn, if_neg (by linarith), if_neg (by linarith), cold_exponent, div_div]
      have h3 : exp (-(x - 1 / √2) * (x - 1 / √2)) ≤ 1 := by
        rw [exp_le_one_iff]
        nlinarith [sq_nonneg (x - 1 / √2)]
      have h4 := erfc_lt_two (1 / √2 - x)
      have h5 : exp (-(x - 1 / √2) * (x - 1 / √2)) / (√2 * √π) ≤ 1 / 2 :=
        div_le_div₀ zero_le_one h3 two_pos sqrt2pi_ge
      norm_num at *
      linarith
    linarith [key a (by linarith) (by linarith), key (-a) (by linarith) (by linarith)]
  · rw [coldDelta, if_neg (by linarith), if_neg (by linarith), coldDelta, if_neg (by linarith), if_neg (by linarith)]
    simp only
    have e : exp (-(a - 1 / √2) * (a - 1 / √2)) = exp (-(-a - 1 / √2) * (-a - 1 / √2)) * exp (2 * u) := by
      rw [← exp_add]
      congr 1
      rw [hinv, hu]
      ring
    rw [e, ← add_div, ← hu, mul_neg, ← hu]
    have : 2 * (exp (-(-a - 1 / √2) * (-a - 1 / √2)) * exp (2 * u)) * (2 - u)
        + 2 * exp (-(-a - 1 / √2) * (-a - 1 / √2)) * (2 - -u) = 0 := by
      linear_combination 2 * exp (-(-a - 1 / √2) * (-a - 1 / √2)) * he
    rw [this, zero_div]
  · rw [coldDxdelta, if_neg (by linarith), if_neg (by linarith), coldDxdelta, if_neg (by linarith), if_neg (by linarith)]
    simp only
    have e : exp (-(-a - 1 / √2) * (-a - 1 / √2)) * exp (2 * u) = exp (-(a - 1 / √2) * (a - 1 / √2)) := by
      rw [← exp_add]
      congr 1
      rw [hinv, hu]
      ring
    set E := exp (-(a - 1 / √2) * (a - 1 / √2)) with hE
    set E' := exp (-(-a - 1 / √2) * (-a - 1 / √2)) with hE'
    have h3 : E' * (u + 2) = E * (u - 2) := by rw [← e]; linear_combination E' * he
    have h4 : √2 - 6 * a + 2 * √2 * a * a = √2 * (1 - 3 * u + u ^ 2) := by
      rw [hu]
      linear_combination (3 * a - √2 * a ^ 2) * hs2
    have h5 : √2 - 6 * -a + 2 * √2 * -a * -a = √2 * (1 + 3 * u + u ^ 2) := by
      rw [hu]
      linear_combination (-3 * a - √2 * a ^ 2) * hs2
    have hE0 : 1 / 3 ≤ E := by
      have h6 : exp (-1) ≤ E := exp_le_exp.2 (by rw [hinv]; nlinarith)
      have h7 : (1 : ℝ) / 3 ≤ exp (-1) := by
        rw [exp_neg, one_div]
        exact inv_anti₀ (exp_pos _) (by linarith [exp_one_lt_d9])
      linarith
    rw [h4, h5, ← add_div, div_le_iff₀ hp]
    have h6 : (2 * E * (√2 * (1 - 3 * u + u ^ 2)) + 2 * E' * (√2 * (1 + 3 * u + u ^ 2))) * (u + 2)
        = 4 * √2 * E * u * (u ^ 2 - 5) := by
      linear_combination (2 * √2 * (1 + 3 * u + u ^ 2)) * h3
    have h7 : u ^ 2 - 5 ≤ -1 / 2 := by nlinarith
    have h8 : 4 * √2 * E * u * (u ^ 2 - 5) ≤ -(1 : ℝ) := by
      have h9 : 2 ≤ 4 * √2 * E * u := by
        have : 1.4 * (1 / 3) ≤ √2 * E := mul_le_mul hs1 hE0 (by norm_num) hs0.le
        nlinarith
      nlinarith
    generalize 2 * E * (√2 * (1 - 3 * u + u ^ 2)) + 2 * E' * (√2 * (1 + 3 * u + u ^ 2)) = D at h6
    have h10 : D * (u + 2) ≤ -1 := h6 ▸ h8
    have h11 : D ≤ -(1 / 4.1) := by
      by_contra hD
      push Not at hD
      nlinarith
    nlinarith

end Nlcg
