import Verif.Proofs.Erf
import Verif.Spec.Smearing
import Mathlib.Analysis.SpecialFunctions.ExpDeriv
import Mathlib.Analysis.SpecialFunctions.Log.Deriv

set_option linter.unusedSimpArgs false

/-! Facts about the smearing functions: the formulas between the cut-offs, their derivatives,
bounds and monotonicity. -/

namespace Nlcg
open Real Spec

/-! ## Glueing -/

theorem hd_to {f g : ℝ → ℝ} {d e x : ℝ} (h : HasDerivAt f d x) (hf : ∀ y, g y = f y)
    (hd : e = d) : HasDerivAt g e x := by
  have : g = f := funext hf
  subst this; subst hd; exact h

/-- A formula between two cut-offs inherits monotonicity and bounds. -/
theorem cut_mono {m : ℝ → ℝ} {mo a b : ℝ} (hab : a ≤ b) (hm : Monotone m)
    (h0 : ∀ x, 0 ≤ m x) (h1 : ∀ x, m x ≤ mo) :
    Monotone fun x => if x < a then 0 else if x > b then mo else m x := by
  intro x y h
  have hmo : 0 ≤ mo := le_trans (h0 0) (h1 0)
  dsimp only
  split_ifs <;> first | linarith | exact h0 _ | exact h1 _ | exact hm h

theorem hasDerivAt_glue {a b : ℝ → ℝ} {d : ℝ} (h0 : a 0 = b 0) (ha : HasDerivAt a d 0)
    (hb : HasDerivAt b d 0) : HasDerivAt (fun x => if x ≤ 0 then a x else b x) d 0 := by
  have h1 : HasDerivWithinAt (fun x => if x ≤ 0 then a x else b x) d (Set.Iic 0) 0 :=
    ha.hasDerivWithinAt.congr (fun x hx => if_pos hx) (if_pos le_rfl)
  have h2 : HasDerivWithinAt (fun x => if x ≤ 0 then a x else b x) d (Set.Ici 0) 0 := by
    refine hb.hasDerivWithinAt.congr (fun x hx => ?_) (by simp [h0])
    rcases eq_or_lt_of_le (Set.mem_Ici.1 hx) with h | h
    · subst h; simp [h0]
    · exact if_neg (not_le.2 h)
  have := h1.union h2
  rwa [Set.Iic_union_Ici, hasDerivWithinAt_univ] at this

/-- derivative of a two-branch formula -/
theorem hasDerivAt_branch {a b a' b' : ℝ → ℝ} (h0 : a 0 = b 0) (h0' : a' 0 = b' 0)
    (ha : ∀ x, HasDerivAt a (a' x) x) (hb : ∀ x, HasDerivAt b (b' x) x) (x : ℝ) :
    HasDerivAt (fun x => if x ≤ 0 then a x else b x) (if x ≤ 0 then a' x else b' x) x := by
  rcases lt_trichotomy x 0 with h | h | h
  · rw [if_pos h.le]
    refine (ha x).congr_of_eventuallyEq ?_
    filter_upwards [Iio_mem_nhds h] with y hy
    exact if_pos (le_of_lt hy)
  · subst h
    rw [if_pos le_rfl]
    exact hasDerivAt_glue h0 (ha 0) (h0' ▸ hb 0)
  · rw [if_neg (not_le.2 h)]
    refine (hb x).congr_of_eventuallyEq ?_
    filter_upwards [Ioi_mem_nhds h] with y hy
    exact if_neg (not_le.2 hy)

/-! ## Fermi-Dirac -/

/-- the formula of `fermi_dirac::fn` between the cut-offs -/
noncomputable def fdMid (x mo : ℝ) : ℝ := mo - mo / (1 + exp x)

theorem one_add_exp_pos (x : ℝ) : 0 < 1 + exp x := by positivity

theorem fdMid_eq (x mo : ℝ) : fdMid x mo = mo * (exp x / (1 + exp x)) := by
  have := (one_add_exp_pos x).ne'
  rw [fdMid]; field_simp; ring

theorem fdMid_nonneg (x : ℝ) {mo : ℝ} (h : 0 ≤ mo) : 0 ≤ fdMid x mo := by
  rw [fdMid_eq]; positivity

theorem fdMid_le (x : ℝ) {mo : ℝ} (h : 0 ≤ mo) : fdMid x mo ≤ mo := by
  rw [fdMid]; have : 0 ≤ mo / (1 + exp x) := by positivity
  linarith

theorem fdMid_mono {mo : ℝ} (h : 0 ≤ mo) : Monotone fun x => fdMid x mo := by
  intro x y hxy
  have h1 := exp_le_exp.2 hxy
  have : mo / (1 + exp y) ≤ mo / (1 + exp x) := by
    apply div_le_div_of_nonneg_left h (one_add_exp_pos x); linarith
  simp only [fdMid]; linarith

theorem fdDenom (x : ℝ) :
    (exp (-x / 2) + exp (x / 2)) * (exp (-x / 2) + exp (x / 2)) * exp x = (1 + exp x) ^ 2 := by
  have h1 : exp (-x / 2) * exp (x / 2) = 1 := by rw [← exp_add]; ring_nf; simp
  have h2 : exp x = exp (x / 2) * exp (x / 2) := by rw [← exp_add]; ring_nf
  rw [h2]
  linear_combination ((exp (-x / 2) * exp (x / 2)) * exp (x/2)^2 * 0 + (exp (-x/2) * exp (x/2) + 1)
    + 2 * exp (x / 2) ^ 2) * h1

theorem fdDelta_mid (x mo : ℝ) :
    mo / ((exp (-x / 2) + exp (x / 2)) * (exp (-x / 2) + exp (x / 2)))
      = mo * exp x / (1 + exp x) ^ 2 := by
  rw [← fdDenom]
  have := exp_pos x
  have : 0 < exp (-x / 2) + exp (x / 2) := by positivity
  field_simp

theorem hasDerivAt_fdMid (x mo : ℝ) :
    HasDerivAt (fun x => fdMid x mo) (mo * exp x / (1 + exp x) ^ 2) x := by
  have h := (((hasDerivAt_exp x).const_add 1).inv (one_add_exp_pos x).ne').const_mul mo
  have h2 := h.const_sub mo
  refine hd_to (h2) (fun _ => rfl) ?_
  try simp only [id, Pi.mul_apply, Pi.neg_apply, Pi.add_apply, Pi.sub_apply, Pi.pow_apply]
  field_simp

theorem hasDerivAt_fdDeltaMid (x mo : ℝ) :
    HasDerivAt (fun x => mo * exp x / (1 + exp x) ^ 2)
      (-mo * (exp x * (exp x - 1)) / (1 + exp x) ^ 3) x := by
  have hp := (one_add_exp_pos x).ne'
  have h := ((hasDerivAt_exp x).const_mul mo).div (((hasDerivAt_exp x).const_add 1).pow 2)
    (pow_ne_zero 2 hp)
  refine hd_to (h) (fun _ => rfl) ?_
  try simp only [id, Pi.mul_apply, Pi.neg_apply, Pi.add_apply, Pi.sub_apply, Pi.pow_apply]
  field_simp
  ring

theorem hasDerivAt_fdEntropyMid (x mo : ℝ) :
    HasDerivAt (fun x => mo * (log (1 + exp x) - exp x * x / (1 + exp x)))
      (-x * (mo * exp x / (1 + exp x) ^ 2)) x := by
  have hp := (one_add_exp_pos x).ne'
  have h1 := ((hasDerivAt_exp x).const_add 1).log hp
  have h2 := ((hasDerivAt_exp x).mul (hasDerivAt_id x)).div ((hasDerivAt_exp x).const_add 1) hp
  have h := (h1.sub h2).const_mul mo
  refine hd_to (h) (fun _ => rfl) ?_
  try simp only [id, Pi.mul_apply, Pi.neg_apply, Pi.add_apply, Pi.sub_apply, Pi.pow_apply]
  field_simp
  ring

theorem fdFn_eq_cut (x mo : ℝ) :
    fdFn x mo = if x < -35 then 0 else if x > 40 then mo else fdMid x mo := rfl

theorem fdFn_nonneg (x : ℝ) {mo : ℝ} (h : 0 ≤ mo) : 0 ≤ fdFn x mo := by
  rw [fdFn_eq_cut]; split_ifs <;> first | exact le_rfl | exact h | exact fdMid_nonneg x h

theorem fdFn_le (x : ℝ) {mo : ℝ} (h : 0 ≤ mo) : fdFn x mo ≤ mo := by
  rw [fdFn_eq_cut]; split_ifs <;> first | exact le_rfl | exact h | exact fdMid_le x h

theorem fdFn_mono {mo : ℝ} (h : 0 ≤ mo) : Monotone fun x => fdFn x mo :=
  cut_mono (by norm_num) (fdMid_mono h) (fun x => fdMid_nonneg x h) (fun x => fdMid_le x h)

theorem fdEntropy_nonneg (x : ℝ) {mo : ℝ} (h : 0 ≤ mo) : 0 ≤ fdEntropy x mo := by
  rw [fdEntropy]; split_ifs
  · exact le_rfl
  · refine mul_nonneg h ?_
    have hp := one_add_exp_pos x
    have he := exp_pos x
    have hfr : exp x * x / (1 + exp x) = x * (exp x / (1 + exp x)) := by ring
    have hf0 : 0 ≤ exp x / (1 + exp x) := by positivity
    have hf1 : exp x / (1 + exp x) ≤ 1 := by rw [div_le_one hp]; linarith
    rw [hfr]
    rcases le_total x 0 with hx | hx
    · have : 0 ≤ log (1 + exp x) := log_nonneg (by linarith)
      nlinarith
    · have : x ≤ log (1 + exp x) := by
        rw [le_log_iff_exp_le hp]; linarith
      nlinarith

/-! ## Gaussian spline -/

/-- the formula of `gaussian_spline::fn` between the cut-offs -/
noncomputable def gsMid (x mo : ℝ) : ℝ :=
  if x ≤ 0 then mo / 2 * exp (x * (√2 - x)) else mo * (1 - 0.5 * exp (-x * (√2 + x)))

theorem gsFn_eq_cut (x mo : ℝ) :
    gsFn x mo = if x < -8 then 0 else if x > 8 then mo else gsMid x mo := by
  rw [gsFn, gsMid]
  split_ifs <;> first | rfl | linarith

theorem gsLow_le (x : ℝ) (h : x ≤ 0) : exp (x * (√2 - x)) ≤ 1 := by
  rw [exp_le_one_iff]
  have : 0 ≤ √2 := sqrt_nonneg 2
  nlinarith

theorem gsHigh_le (x : ℝ) (h : 0 ≤ x) : exp (-x * (√2 + x)) ≤ 1 := by
  rw [exp_le_one_iff]
  have : 0 ≤ √2 := sqrt_nonneg 2
  nlinarith

theorem gsMid_nonneg (x : ℝ) {mo : ℝ} (h : 0 ≤ mo) : 0 ≤ gsMid x mo := by
  rw [gsMid]; split_ifs with hx
  · positivity
  · have := gsHigh_le x (not_le.1 hx).le
    refine mul_nonneg h (by linarith)

theorem gsMid_le (x : ℝ) {mo : ℝ} (h : 0 ≤ mo) : gsMid x mo ≤ mo := by
  rw [gsMid]; split_ifs with hx
  · have := gsLow_le x hx
    nlinarith
  · have := exp_pos (-x * (√2 + x))
    nlinarith

theorem gsMid_mono {mo : ℝ} (h : 0 ≤ mo) : Monotone fun x => gsMid x mo := by
  intro x y hxy
  have h2 : 0 ≤ √2 := sqrt_nonneg 2
  simp only [gsMid]
  split_ifs with hx hy hy
  · have : exp (x * (√2 - x)) ≤ exp (y * (√2 - y)) := by
      rw [exp_le_exp]; nlinarith
    exact mul_le_mul_of_nonneg_left this (by positivity)
  · have h1 := gsLow_le x hx
    have h3 := gsHigh_le y (not_le.1 hy).le
    nlinarith
  · exact absurd (le_trans hxy hy) hx
  · have : exp (-y * (√2 + y)) ≤ exp (-x * (√2 + x)) := by
      rw [exp_le_exp]; push Not at hx; nlinarith
    refine mul_le_mul_of_nonneg_left ?_ h
    linarith

theorem gsFn_nonneg (x : ℝ) {mo : ℝ} (h : 0 ≤ mo) : 0 ≤ gsFn x mo := by
  rw [gsFn_eq_cut]; split_ifs <;> first | exact le_rfl | exact h | exact gsMid_nonneg x h

theorem gsFn_le (x : ℝ) {mo : ℝ} (h : 0 ≤ mo) : gsFn x mo ≤ mo := by
  rw [gsFn_eq_cut]; split_ifs <;> first | exact le_rfl | exact h | exact gsMid_le x h

theorem gsFn_mono {mo : ℝ} (h : 0 ≤ mo) : Monotone fun x => gsFn x mo := by
  have := cut_mono (a := -8) (b := 8) (by norm_num) (gsMid_mono h) (fun x => gsMid_nonneg x h)
    (fun x => gsMid_le x h)
  simpa only [← gsFn_eq_cut] using this

theorem sqrt2_sq : √(2 : ℝ) * √2 = 2 := mul_self_sqrt (by norm_num)

theorem hasDerivAt_gsExpLow (x : ℝ) :
    HasDerivAt (fun x : ℝ => exp (x * (√2 - x))) (exp (x * (√2 - x)) * (√2 - 2 * x)) x := by
  have h := ((hasDerivAt_id x).mul ((hasDerivAt_id x).const_sub √2)).exp
  refine hd_to (h) (fun _ => rfl) ?_
  try simp only [id, Pi.mul_apply, Pi.neg_apply, Pi.add_apply, Pi.sub_apply, Pi.pow_apply]
  ring

theorem hasDerivAt_gsExpHigh (x : ℝ) :
    HasDerivAt (fun x : ℝ => exp (-x * (√2 + x))) (-(exp (-x * (√2 + x)) * (√2 + 2 * x))) x := by
  have h := ((hasDerivAt_id x).neg.mul ((hasDerivAt_id x).const_add √2)).exp
  refine hd_to (h) (fun _ => rfl) ?_
  try simp only [id, Pi.mul_apply, Pi.neg_apply, Pi.add_apply, Pi.sub_apply, Pi.pow_apply]
  ring

theorem hasDerivAt_gsMid (x mo : ℝ) : HasDerivAt (fun x => gsMid x mo)
    (if x ≤ 0 then mo * 0.5 * exp ((√2 - x) * x) * (√2 - 2 * x)
      else mo * 0.5 * exp (-x * (√2 + x)) * (√2 + 2 * x)) x := by
  refine hasDerivAt_branch (a := fun x => mo / 2 * exp (x * (√2 - x)))
    (b := fun x => mo * (1 - 0.5 * exp (-x * (√2 + x))))
    (a' := fun x => mo * 0.5 * exp ((√2 - x) * x) * (√2 - 2 * x))
    (b' := fun x => mo * 0.5 * exp (-x * (√2 + x)) * (√2 + 2 * x)) ?_ ?_ ?_ ?_ x
  · simp; ring
  · simp
  · intro y
    refine hd_to ((hasDerivAt_gsExpLow y).const_mul (mo / 2)) (fun _ => rfl) ?_
    try simp only [id, Pi.mul_apply, Pi.neg_apply, Pi.add_apply, Pi.sub_apply, Pi.pow_apply]
    rw [mul_comm (√2 - y) y]; ring
  · intro y
    refine hd_to ((((hasDerivAt_gsExpHigh y).const_mul 0.5).const_sub 1).const_mul mo) (fun _ => rfl) ?_
    try simp only [id, Pi.mul_apply, Pi.neg_apply, Pi.add_apply, Pi.sub_apply, Pi.pow_apply]
    ring

theorem hasDerivAt_gsDeltaMid (x mo : ℝ) : HasDerivAt
    (fun x => if x ≤ 0 then mo * 0.5 * exp ((√2 - x) * x) * (√2 - 2 * x)
      else mo * 0.5 * exp (-x * (√2 + x)) * (√2 + 2 * x))
    (if x ≤ 0 then -2 * mo * exp ((√2 - x) * x) * x * (√2 - x)
      else -2 * mo * exp (-x * (√2 + x)) * x * (√2 + x)) x := by
  refine hasDerivAt_branch (a := fun x => mo * 0.5 * exp ((√2 - x) * x) * (√2 - 2 * x))
    (b := fun x => mo * 0.5 * exp (-x * (√2 + x)) * (√2 + 2 * x))
    (a' := fun x => -2 * mo * exp ((√2 - x) * x) * x * (√2 - x))
    (b' := fun x => -2 * mo * exp (-x * (√2 + x)) * x * (√2 + x)) ?_ ?_ ?_ ?_ x
  · simp
  · simp
  · intro y
    have h := ((hasDerivAt_gsExpLow y).const_mul (mo * 0.5)).mul
      (((hasDerivAt_id y).const_mul 2).const_sub √2)
    simp only [mul_comm (√2 - _)] at h ⊢
    refine hd_to (h) (fun _ => rfl) ?_
    try simp only [id, Pi.mul_apply, Pi.neg_apply, Pi.add_apply, Pi.sub_apply, Pi.pow_apply]
    linear_combination (-(mo * 0.5 * exp (y * (√2 - y)))) * sqrt2_sq
  · intro y
    have h := ((hasDerivAt_gsExpHigh y).const_mul (mo * 0.5)).mul
      (((hasDerivAt_id y).const_mul 2).const_add √2)
    refine hd_to (h) (fun _ => rfl) ?_
    try simp only [id, Pi.mul_apply, Pi.neg_apply, Pi.add_apply, Pi.sub_apply, Pi.pow_apply]
    linear_combination ((mo * 0.5 * exp (-y * (√2 + y)))) * sqrt2_sq

theorem inv_sqrt2_sq : (1 / √(2 : ℝ)) ^ 2 = 1 / 2 := by
  rw [div_pow, sq_sqrt (by norm_num)]; norm_num

theorem two_div_sqrt2 : 2 * (1 / √(2 : ℝ)) = √2 := by
  have h := sqrt2_sq
  have : √(2:ℝ) ≠ 0 := by positivity
  field_simp; linarith

theorem gs_erfc_low (x : ℝ) :
    exp 0.5 * √π * (2 / √π * exp (-(1 / √2 - x) ^ 2)) = 2 * exp (x * (√2 - x)) := by
  have h : -(1 / √2 - x) ^ 2 = -0.5 + x * (√2 - x) := by
    linear_combination (-1 : ℝ) * inv_sqrt2_sq + x * two_div_sqrt2
  rw [h, exp_add]
  have h1 : exp 0.5 * exp (-0.5) = 1 := by rw [← exp_add]; norm_num
  have := sqrtpi_pos.ne'
  field_simp
  linear_combination h1

theorem gs_erfc_high (x : ℝ) :
    exp 0.5 * √π * (2 / √π * exp (-(1 / √2 + x) ^ 2)) = 2 * exp (-x * (√2 + x)) := by
  have := gs_erfc_low (-x)
  rw [sub_neg_eq_add, sub_neg_eq_add] at this
  exact this

theorem hasDerivAt_gsEntropyMid (x : ℝ) : HasDerivAt
    (fun x => if x ≤ 0 then 0.25 * (-2 * exp (x * (√2 - x)) * x
        + exp 0.5 * √π * erfc (1 / √2 - x))
      else 0.25 * (2 * exp (-x * (√2 + x)) * x + exp 0.5 * √π * erfc (1 / √2 + x)))
    (if x ≤ 0 then -x * (0.5 * exp ((√2 - x) * x) * (√2 - 2 * x))
      else -x * (0.5 * exp (-x * (√2 + x)) * (√2 + 2 * x))) x := by
  refine hasDerivAt_branch (a := fun x => 0.25 * (-2 * exp (x * (√2 - x)) * x
        + exp 0.5 * √π * erfc (1 / √2 - x)))
    (b := fun x => 0.25 * (2 * exp (-x * (√2 + x)) * x + exp 0.5 * √π * erfc (1 / √2 + x)))
    (a' := fun x => -x * (0.5 * exp ((√2 - x) * x) * (√2 - 2 * x)))
    (b' := fun x => -x * (0.5 * exp (-x * (√2 + x)) * (√2 + 2 * x))) ?_ ?_ ?_ ?_ x
  · simp
  · simp
  · intro y
    have h1 := ((hasDerivAt_gsExpLow y).const_mul (-2)).mul (hasDerivAt_id y)
    have h2 := ((hasDerivAt_erfc (1 / √2 - y)).comp y
      ((hasDerivAt_id y).const_sub (1 / √2))).const_mul (exp 0.5 * √π)
    have h := (h1.add h2).const_mul 0.25
    refine hd_to (h) (fun _ => rfl) ?_
    try simp only [id, Pi.mul_apply, Pi.neg_apply, Pi.add_apply, Pi.sub_apply, Pi.pow_apply]
    have := gs_erfc_low y
    simp only [mul_comm (√2 - y) y]
    linear_combination (-0.25 : ℝ) * this
  · intro y
    have h1 := ((hasDerivAt_gsExpHigh y).const_mul 2).mul (hasDerivAt_id y)
    have h2 := ((hasDerivAt_erfc (1 / √2 + y)).comp y
      ((hasDerivAt_id y).const_add (1 / √2))).const_mul (exp 0.5 * √π)
    have h := (h1.add h2).const_mul 0.25
    refine hd_to (h) (fun _ => rfl) ?_
    try simp only [id, Pi.mul_apply, Pi.neg_apply, Pi.add_apply, Pi.sub_apply, Pi.pow_apply]
    have := gs_erfc_high y
    linear_combination (0.25 : ℝ) * this

theorem gsEntropy_nonneg (x mo : ℝ) : 0 ≤ gsEntropy x mo := by
  rw [gsEntropy]; split_ifs with h1 h2
  · exact le_rfl
  · have := erfc_pos (1 / √2 + x)
    positivity
  · have h3 := erfc_pos (1 / √2 - x)
    have h4 : 0 ≤ -2 * exp (x * (√2 - x)) * x := by
      have := exp_pos (x * (√2 - x))
      push Not at h2
      nlinarith
    positivity

/-! ## Cold smearing -/

theorem cold_exponent (x : ℝ) :
    (-0.5 : ℝ) + (√2 - x) * x = -(x - 1 / √2) * (x - 1 / √2) := by
  linear_combination inv_sqrt2_sq - x * two_div_sqrt2

theorem hasDerivAt_coldExp (x : ℝ) : HasDerivAt
    (fun x : ℝ => exp (-(x - 1 / √2) * (x - 1 / √2)))
    (exp (-(x - 1 / √2) * (x - 1 / √2)) * (√2 - 2 * x)) x := by
  have h1 := (hasDerivAt_id x).sub_const (1 / √2)
  have h := (h1.neg.mul h1).exp
  refine hd_to (h) (fun _ => rfl) ?_
  try simp only [id, Pi.mul_apply, Pi.neg_apply, Pi.add_apply, Pi.sub_apply, Pi.pow_apply]
  linear_combination (-(exp (-(x - 1 / √2) * (x - 1 / √2)))) * two_div_sqrt2

theorem hasDerivAt_coldMid (x mo : ℝ) : HasDerivAt
    (fun x => mo * (exp (-0.5 + (√2 - x) * x) / √2 / √π + 0.5 * erfc (1 / √2 - x)))
    (mo * exp (-(x - 1 / √2) * (x - 1 / √2)) * (2 - √2 * x) / √π) x := by
  simp only [cold_exponent]
  have h1 := ((hasDerivAt_coldExp x).div_const √2).div_const √π
  have h2 := ((hasDerivAt_erfc (1 / √2 - x)).comp x
    ((hasDerivAt_id x).const_sub (1 / √2))).const_mul 0.5
  have h := (h1.add h2).const_mul mo
  refine hd_to (h) (fun _ => rfl) ?_
  try simp only [id, Pi.mul_apply, Pi.neg_apply, Pi.add_apply, Pi.sub_apply, Pi.pow_apply]
  have e : -(1 / √2 - x) ^ 2 = -(x - 1 / √2) * (x - 1 / √2) := by ring
  rw [e]
  have hs : √(2:ℝ) ≠ 0 := by positivity
  have hp := sqrtpi_pos.ne'
  have hs2 := sqrt2_sq
  field_simp
  linear_combination (-x * mo) * hs2

theorem hasDerivAt_coldDeltaMid (x mo : ℝ) : HasDerivAt
    (fun x => mo * exp (-(x - 1 / √2) * (x - 1 / √2)) * (2 - √2 * x) / √π)
    (mo * exp (-(x - 1 / √2) * (x - 1 / √2)) * (√2 - 6 * x + 2 * √2 * x * x) / √π) x := by
  have h := (((hasDerivAt_coldExp x).const_mul mo).mul
    (((hasDerivAt_id x).const_mul √2).const_sub 2)).div_const √π
  refine hd_to (h) (fun _ => rfl) ?_
  try simp only [id, Pi.mul_apply, Pi.neg_apply, Pi.add_apply, Pi.sub_apply, Pi.pow_apply]
  congr 1
  linear_combination (mo * exp (-(x - 1 / √2) * (x - 1 / √2)) * x) * sqrt2_sq

theorem hasDerivAt_coldEntropyMid (x mo : ℝ) : HasDerivAt
    (fun x => mo * exp (-(x - 1 / √2) * (x - 1 / √2)) * (1 - √2 * x) / 2 / √π)
    (-x * (mo * exp (-(x - 1 / √2) * (x - 1 / √2)) * (2 - √2 * x) / √π)) x := by
  have h := ((((hasDerivAt_coldExp x).const_mul mo).mul
    (((hasDerivAt_id x).const_mul √2).const_sub 1)).div_const 2).div_const √π
  refine hd_to (h) (fun _ => rfl) ?_
  try simp only [id, Pi.mul_apply, Pi.neg_apply, Pi.add_apply, Pi.sub_apply, Pi.pow_apply]
  rw [mul_div_assoc']
  congr 1
  linear_combination (mo * exp (-(x - 1 / √2) * (x - 1 / √2)) * x / 2) * sqrt2_sq

/-- beyond its maximum at `√2` the cold occupation decreases to its limit -/
theorem cold_mid_gt (x mo : ℝ) (hmo : 0 < mo) (h : √2 ≤ x) :
    mo < mo * (exp (-0.5 + (√2 - x) * x) / √2 / √π + 0.5 * erfc (1 / √2 - x)) := by
  set m : ℝ → ℝ := fun x => mo * (exp (-0.5 + (√2 - x) * x) / √2 / √π + 0.5 * erfc (1 / √2 - x))
    with hm
  have hp := sqrtpi_pos
  have hanti : StrictAntiOn m (Set.Ici √2) := by
    apply strictAntiOn_of_deriv_neg (convex_Ici _)
    · exact fun y _ => (hasDerivAt_coldMid y mo).continuousAt.continuousWithinAt
    · intro y hy
      rw [interior_Ici, Set.mem_Ioi] at hy
      rw [(hasDerivAt_coldMid y mo).deriv]
      have h2 := sqrt2_sq
      have h0 : 0 < √(2 : ℝ) := by positivity
      have hneg : 2 - √2 * y < 0 := by nlinarith
      have he := exp_pos (-(y - 1 / √2) * (y - 1 / √2))
      exact div_neg_of_neg_of_pos (mul_neg_of_pos_of_neg (by positivity) hneg) hp
  have hlim : Filter.Tendsto m Filter.atTop (nhds mo) := by
    have hz : Filter.Tendsto (fun x : ℝ => x - 1 / √2) Filter.atTop Filter.atTop :=
      Filter.tendsto_atTop_add_const_right _ _ Filter.tendsto_id
    have h1 : Filter.Tendsto (fun x : ℝ => exp (-0.5 + (√2 - x) * x)) Filter.atTop (nhds 0) := by
      simp only [cold_exponent, neg_mul]
      exact tendsto_exp_neg_atTop_nhds_zero.comp (hz.atTop_mul_atTop₀ hz)
    have h2 : Filter.Tendsto (fun x : ℝ => erfc (1 / √2 - x)) Filter.atTop (nhds 2) := by
      have := (tendsto_erf_atTop.comp hz).const_add 1
      norm_num at this
      refine this.congr fun x => ?_
      rw [erfc, ← neg_sub, erf_neg]
      simp [sub_eq_add_neg]
    have h3 := (((h1.div_const √2).div_const √π).add (h2.const_mul 0.5)).const_mul mo
    have e : mo * (0 / √2 / √π + 0.5 * 2) = mo := by norm_num
    rwa [e] at h3
  have hge : mo ≤ m (x + 1) := by
    refine le_of_tendsto hlim ?_
    filter_upwards [Filter.eventually_ge_atTop (x + 1)] with y hy
    exact hanti.antitoneOn (Set.mem_Ici.2 (by linarith)) (Set.mem_Ici.2 (by linarith)) hy
  have hlt : m (x + 1) < m x := hanti (Set.mem_Ici.2 h) (Set.mem_Ici.2 (by linarith)) (by linarith)
  exact lt_of_le_of_lt hge hlt

/-! ## Gauss and Methfessel-Paxton -/

theorem hasDerivAt_expSq (x : ℝ) :
    HasDerivAt (fun x : ℝ => exp (-x * x)) (exp (-x * x) * (-2 * x)) x := by
  have h := ((hasDerivAt_id x).neg.mul (hasDerivAt_id x)).exp
  refine hd_to (h) (fun _ => rfl) ?_
  try simp only [id, Pi.mul_apply, Pi.neg_apply, Pi.add_apply, Pi.sub_apply, Pi.pow_apply]
  ring

theorem neg_sq_eq (x : ℝ) : -x ^ 2 = -x * x := by ring

theorem hasDerivAt_gaussFn (x mo : ℝ) :
    HasDerivAt (fun x => gaussFn x mo) (gaussDelta x mo) x := by
  have h := ((hasDerivAt_erf x).const_add 1).const_mul (mo / 2)
  unfold gaussFn
  refine hd_to (h) (fun _ => rfl) ?_
  try simp only [id, Pi.mul_apply, Pi.neg_apply, Pi.add_apply, Pi.sub_apply, Pi.pow_apply]
  rw [gaussDelta, neg_sq_eq]; ring

theorem hasDerivAt_gaussDelta (x mo : ℝ) :
    HasDerivAt (fun x => gaussDelta x mo) (gaussDxdelta x mo) x := by
  have h := ((hasDerivAt_expSq x).const_mul mo).div_const √π
  unfold gaussDelta
  refine hd_to (h) (fun _ => rfl) ?_
  try simp only [id, Pi.mul_apply, Pi.neg_apply, Pi.add_apply, Pi.sub_apply, Pi.pow_apply]
  rw [gaussDxdelta]; ring

theorem hasDerivAt_gaussEntropy (x mo : ℝ) :
    HasDerivAt (fun x => gaussEntropy x mo) (-x * gaussDelta x mo) x := by
  have h := ((hasDerivAt_expSq x).const_mul (mo / 2)).div_const √π
  unfold gaussEntropy
  refine hd_to (h) (fun _ => rfl) ?_
  try simp only [id, Pi.mul_apply, Pi.neg_apply, Pi.add_apply, Pi.sub_apply, Pi.pow_apply]
  rw [gaussDelta]; ring

theorem hasDerivAt_mpFn (x mo : ℝ) :
    HasDerivAt (fun x => mpFn x mo) (mpDelta x mo) x := by
  have h1 := ((hasDerivAt_expSq x).mul (hasDerivAt_id x)).div_const √π
  have h := ((h1.const_add 1).add (hasDerivAt_erf x)).const_mul (mo / 2)
  have e : (fun x => mpFn x mo) = fun x => mo / 2 * (1 + exp (-x * x) * x / √π + erf x) := by
    funext y; simp only [mpFn, neg_mul]
  rw [e]
  refine hd_to (h) (fun _ => rfl) ?_
  try simp only [id, Pi.mul_apply, Pi.neg_apply, Pi.add_apply, Pi.sub_apply, Pi.pow_apply]
  simp only [mpDelta, neg_sq_eq, ← neg_mul]; ring

/-- the derivative of the Methfessel-Paxton delta (the code has `2x²-5` instead of `2x³-5x`) -/
theorem hasDerivAt_mpDelta (x mo : ℝ) :
    HasDerivAt (fun x => mpDelta x mo) (mo * exp (-x * x) * (x * (2 * x * x - 5)) / √π) x := by
  have h1 := (hasDerivAt_expSq x).const_mul mo
  have h2 := (((((hasDerivAt_id x).mul (hasDerivAt_id x)).const_mul 4).const_sub 2).const_mul
    0.25).const_add 1
  have h := (h1.mul h2).div_const √π
  have e : (fun x => mpDelta x mo)
      = fun x => mo * exp (-x * x) * (1 + 0.25 * (2 - 4 * (x * x))) / √π := by
    funext y; simp only [mpDelta, neg_mul]
  rw [e]
  refine hd_to (h) (fun _ => rfl) ?_
  try simp only [id, Pi.mul_apply, Pi.neg_apply, Pi.add_apply, Pi.sub_apply, Pi.pow_apply]
  ring

theorem hasDerivAt_mpEntropy (x mo : ℝ) :
    HasDerivAt (fun x => mpEntropy x mo) (-x * mpDelta x mo) x := by
  have h1 := (hasDerivAt_expSq x).const_mul mo
  have h2 := ((((hasDerivAt_id x).mul (hasDerivAt_id x)).const_mul 2).const_sub 1)
  have h := ((h1.mul h2).div_const 4).div_const √π
  have e : (fun x => mpEntropy x mo)
      = fun x => mo * exp (-x * x) * (1 - 2 * (x * x)) / 4 / √π := by
    funext y; simp only [mpEntropy, neg_mul]
  rw [e]
  refine hd_to (h) (fun _ => rfl) ?_
  try simp only [id, Pi.mul_apply, Pi.neg_apply, Pi.add_apply, Pi.sub_apply, Pi.pow_apply]
  simp only [mpDelta, neg_mul]; ring

theorem gaussFn_nonneg (x : ℝ) {mo : ℝ} (h : 0 ≤ mo) : 0 ≤ gaussFn x mo := by
  have := neg_one_lt_erf x
  rw [gaussFn]
  exact mul_nonneg (by positivity) (by linarith)

theorem gaussFn_le (x : ℝ) {mo : ℝ} (h : 0 ≤ mo) : gaussFn x mo ≤ mo := by
  have := erf_lt_one x
  rw [gaussFn]
  nlinarith

theorem gaussFn_mono {mo : ℝ} (h : 0 ≤ mo) : Monotone fun x => gaussFn x mo := by
  intro x y hxy
  have := erf_mono hxy
  simp only [gaussFn]
  exact mul_le_mul_of_nonneg_left (by linarith) (by positivity)

theorem gaussEntropy_nonneg (x : ℝ) {mo : ℝ} (h : 0 ≤ mo) : 0 ≤ gaussEntropy x mo := by
  rw [gaussEntropy]; positivity

/-! ## Relation to the specification -/

theorem kB_pos : (0 : ℝ) < ((kB : ℚ) : ℝ) := by rw [kB]; push_cast; norm_num

theorem gsDelta_scale (x mo : ℝ) : gsDelta x mo = mo * gsDelta x 1 := by
  simp only [gsDelta]; split_ifs <;> ring

theorem gsDelta_pos (x : ℝ) (h : |x| ≤ 7) : 0 < gsDelta x 1 := by
  have h2 : 0 < √(2 : ℝ) := by positivity
  rw [gsDelta, if_neg (not_lt.2 h)]
  split_ifs with hx
  · have : 0 < √2 - 2 * x := by linarith
    positivity
  · push Not at hx; positivity

theorem entropy_nonneg (t : SmearType) (ht : Monotonic t) (x mo : ℝ) (h : 0 ≤ mo) :
    0 ≤ (smearFns t).entropy x mo := by
  cases t with
  | fermiDirac => exact fdEntropy_nonneg x h
  | gaussianSpline => exact gsEntropy_nonneg x mo
  | gauss => exact gaussEntropy_nonneg x h
  | methfesselPaxton => exact ht.elim
  | cold => exact ht.elim

theorem fermi_eq (x mo : ℝ) : mo * fermi x = fdMid x mo := by
  rw [fdMid_eq, fermi, exp_neg]
  have := exp_pos x
  field_simp

theorem spline_eq (x mo : ℝ) : mo * spline x = gsMid x mo := by
  rw [spline, gsMid]
  split_ifs
  · have : √2 * x - x ^ 2 = x * (√2 - x) := by ring
    rw [this]; ring
  · have : -(√2 * x) - x ^ 2 = -x * (√2 + x) := by ring
    rw [this]; ring

end Nlcg
