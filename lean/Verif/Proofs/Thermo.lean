import Verif.Proofs.Variational
import Verif.Proofs.CountWindow
import Verif.Spec.Thermo

/-! # Helper lemmas for the thermodynamics of given bands -/

namespace Nlcg
open Spec Real

/-! ## One level -/

theorem mixing_dual (y : ℝ) : mixing (fermi y) + y * fermi y = log (1 + exp y) := by
  have hp := one_add_exp_pos y
  have hf : fermi y = exp y / (1 + exp y) := by
    have := fermi_eq y 1
    rw [one_mul, fdMid_eq, one_mul] at this
    exact this
  rw [mixing_fermi, hf]
  field_simp
  ring

theorem log_one_add_exp_le (y : ℝ) : log (1 + exp y) ≤ exp y := by
  have := log_le_sub_one_of_pos (one_add_exp_pos y); linarith

theorem log_one_add_exp_le' (y : ℝ) : log (1 + exp y) ≤ y + exp (-y) := by
  have h : 1 + exp y = exp y * (1 + exp (-y)) := by
    rw [mul_add, mul_one, ← exp_add, add_neg_cancel, exp_zero, add_comm]
  rw [h, log_mul (exp_pos _).ne' (one_add_exp_pos _).ne', log_exp]
  linarith [log_one_add_exp_le (-y)]

theorem spline_entropy_tail {x : ℝ} (h : 7 < |x|) : idealEntropy .gaussianSpline x ≤ exp (-35) := by
  have hs : 0 < √(2 : ℝ) := by positivity
  have hs1 : 1 ≤ √(2 : ℝ) := by rw [one_le_sqrt]; norm_num
  have hx2 : x ^ 2 = |x| * |x| := by rw [← sq, sq_abs]
  set a := |x|
  have h1 : a * exp (-(√2 * a) - x ^ 2) / 2 ≤ exp (-35) / 2 := by
    have e1 : a ≤ exp a := by linarith [add_one_le_exp a]
    have e2 : a * exp (-(√2 * a) - x ^ 2) ≤ exp a * exp (-(√2 * a) - x ^ 2) :=
      mul_le_mul_of_nonneg_right e1 (exp_pos _).le
    rw [← exp_add] at e2
    have e3 : exp (a + (-(√2 * a) - x ^ 2)) ≤ exp (-35) := exp_le_exp.2 (by rw [hx2]; nlinarith)
    linarith
  have h2 : exp (1 / 2) * √π * (1 - erf (1 / √2 + a)) / 4 ≤ exp (-35) / 2 := by
    have hz : 7 < 1 / √2 + a := by have : 0 < 1 / √2 := by positivity
                                   linarith
    have e1 := erfc_le (1 / √2 + a) (by linarith)
    rw [erfc] at e1
    have e2 : exp (-(1 / √2 + a) ^ 2) ≤ exp (-35 - 1 / 2) := exp_le_exp.2 (by nlinarith)
    have hpi : √π ≤ 2 := by
      rw [sqrt_le_left (by norm_num)]
      have := pi_le_four
      linarith
    have hp : 0 ≤ √π := sqrt_nonneg _
    have he := exp_pos (1 / 2 : ℝ)
    have e3 : exp (1 / 2) * √π * (1 - erf (1 / √2 + a)) ≤ exp (1 / 2) * 2 * exp (-35 - 1 / 2) := by
      have : (0 : ℝ) ≤ 1 - erf (1 / √2 + a) := by have := erfc_pos (1 / √2 + a); rw [erfc] at this; exact this.le
      exact mul_le_mul (mul_le_mul_of_nonneg_left hpi he.le) (e1.trans e2) this (by positivity)
    have e4 : exp (1 / 2) * 2 * exp (-35 - 1 / 2) = 2 * exp (-35) := by
      rw [mul_comm (exp (1 / 2)), mul_assoc, ← exp_add]; norm_num
    linarith
  show a * exp (-(√2 * a) - x ^ 2) / 2 + exp (1 / 2) * √π * (1 - erf (1 / √2 + a)) / 4 ≤ _
  linarith

theorem idealEntropy_nonneg {t : SmearType} (ht : Monotonic t) (x : ℝ) : 0 ≤ idealEntropy t x := by
  cases t with
  | fermiDirac =>
    have h0 : 0 ≤ fermi x := idealFn_nonneg (t := .fermiDirac) trivial x
    have h1 : fermi x ≤ 1 := by
      have := fermi_eq x 1
      rw [one_mul] at this
      rw [this]
      exact fdMid_le x zero_le_one
    show 0 ≤ mixing (fermi x)
    have a1 := mul_nonneg h0 (neg_nonneg.2 (log_nonpos h0 h1))
    have a2 := mul_nonneg (sub_nonneg.2 h1) (neg_nonneg.2 (log_nonpos (sub_nonneg.2 h1) (sub_le_self 1 h0)))
    rw [mixing]
    linarith
  | gauss => simp only [idealEntropy]; positivity
  | gaussianSpline =>
    have := erfc_pos (1 / √2 + |x|)
    rw [erfc] at this
    simp only [idealEntropy]
    positivity
  | methfesselPaxton => exact ht.elim
  | cold => exact ht.elim

/-- loss by the cut-offs -/
noncomputable def loss : SmearType → ℝ
  | .fermiDirac => exp (-35)
  | .gaussianSpline => exp (-35)
  | _ => 0

theorem level_reached {t : SmearType} (ht : Monotonic t) {mo : ℝ} (h0 : 0 ≤ mo) (h1 : t = .gaussianSpline → mo = 1)
    (y : ℝ) : mo * (idealEntropy t y + y * idealFn t y)
      ≤ (smearFns t).entropy y mo + y * (smearFns t).fn y mo + mo * loss t := by
  cases t with
  | fermiDirac =>
    show mo * (mixing (fermi y) + y * fermi y) ≤ fdEntropy y mo + y * fdFn y mo + mo * exp (-35)
    have he := mul_nonneg h0 (exp_pos (-35)).le
    rw [fdFn_eq_cut]
    rcases lt_or_ge y (-35) with hy | hy
    · rw [if_pos hy, mul_zero, add_zero, mixing_dual]
      have := mul_le_mul_of_nonneg_left ((log_one_add_exp_le y).trans (exp_le_exp.2 hy.le)) h0
      linarith [fdEntropy_nonneg y h0]
    · rw [if_neg (show ¬ y < -35 from not_lt.2 hy)]
      by_cases h40 : 40 < y
      · rw [if_pos h40, mixing_dual]
        have := mul_le_mul_of_nonneg_left
          ((log_one_add_exp_le' y).trans (add_le_add_right (exp_le_exp.2 (show -y ≤ -35 by linarith)) y)) h0
        linarith [fdEntropy_nonneg y h0]
      · rw [if_neg h40, fdEntropy, if_neg (show ¬ |y| > 40 from not_lt.2 (abs_le.2 ⟨by linarith, not_lt.1 h40⟩)),
          ← mixing_fermi, ← fermi_eq]
        linarith
  | gauss =>
    show mo * (_ + y * _) ≤ gaussEntropy y mo + y * gaussFn y mo + mo * 0
    refine le_of_eq ?_
    simp only [idealEntropy, idealFn, gaussEntropy, gaussFn, neg_sq_eq]
    ring
  | gaussianSpline =>
    have hm := h1 rfl
    subst hm
    show 1 * (idealEntropy .gaussianSpline y + y * spline y) ≤ gsEntropy y 1 + y * gsFn y 1 + 1 * exp (-35)
    have he := exp_pos (-35)
    have hsp0 : 0 ≤ spline y := idealFn_nonneg (t := .gaussianSpline) trivial y
    have hsp1 : spline y ≤ 1 := by
      have := spline_eq y 1
      rw [one_mul] at this
      rw [this]
      exact gsMid_le y zero_le_one
    rw [gsFn_eq_cut]
    by_cases h7 : 7 < |y|
    · have ht := spline_entropy_tail h7
      rw [gsEntropy, if_pos h7]
      split_ifs with ha hb
      · nlinarith
      · nlinarith
      · rw [← spline_eq]
        linarith
    · obtain ⟨ha, hb⟩ := abs_le.1 (not_lt.1 h7)
      rw [if_neg (by linarith), if_neg (by linarith), ← spline_eq, gsEntropy, if_neg h7, idealEntropy_spline]
      by_cases hy : y ≤ 0
      · rw [if_pos hy, if_neg (not_lt.2 hy)]; linarith
      · rw [if_neg hy, if_pos (not_le.1 hy)]; linarith
  | methfesselPaxton => exact ht.elim
  | cold => exact ht.elim

theorem level_exchange {t : SmearType} (ht : Monotonic t) {mo : ℝ} (h0 : 0 ≤ mo) (h1 : t = .gaussianSpline → mo = 1)
    (x y : ℝ) : (smearFns t).entropy x mo + y * (smearFns t).fn x mo
      ≤ (smearFns t).entropy y mo + y * (smearFns t).fn y mo + mo * slack t := by
  have e1 := level_dual ht h0 (fun h => (h1 h).ge) x y
  have e2 := level_reached ht h0 h1 y
  have e3 : cutoffError t + loss t = slack t := by
    cases t <;> simp only [cutoffError, loss, slack] <;> ring
  rw [← e3]
  linarith

/-! ## Sums -/

variable {K : ℕ} {b : Fin K → ℕ}

/-- The state that belongs to `T` and `mu` has the least grand potential, among all that are described by arguments
`x` of the smearing functions. -/
theorem grand_least {s f : ℝ → ℝ} {δ : ℝ} (h : ∀ x y, s x + y * f x ≤ s y + y * f y + δ) {wk : Fin K → ℝ}
    (hw : ∀ k, 0 ≤ wk k) {kT : ℝ} (hk : 0 < kT) (e : Bands b) (mu : ℝ) (x : Bands b) :
    (∑ k, wk k * ∑ i, e k i * f ((mu - e k i) / kT)) - kT * (∑ k, wk k * ∑ i, s ((mu - e k i) / kT))
        - mu * ∑ k, wk k * ∑ i, f ((mu - e k i) / kT)
      ≤ (∑ k, wk k * ∑ i, e k i * f (x k i)) - kT * (∑ k, wk k * ∑ i, s (x k i))
        - mu * (∑ k, wk k * ∑ i, f (x k i)) + kT * (δ * ∑ k, wk k * b k) := by
  simp only [Finset.mul_sum, ← Finset.sum_sub_distrib, ← Finset.sum_add_distrib]
  refine Finset.sum_le_sum fun k _ => ?_
  have h1 : ∀ i, e k i * f ((mu - e k i) / kT) - kT * s ((mu - e k i) / kT) - mu * f ((mu - e k i) / kT)
      ≤ e k i * f (x k i) - kT * s (x k i) - mu * f (x k i) + kT * δ := fun i => by
    have := mul_le_mul_of_nonneg_left (h (x k i) ((mu - e k i) / kT)) hk.le
    have e1 : kT * (s (x k i) + (mu - e k i) / kT * f (x k i)) = kT * s (x k i) + (mu - e k i) * f (x k i) := by
      field_simp
    have e2 : kT * (s ((mu - e k i) / kT) + (mu - e k i) / kT * f ((mu - e k i) / kT) + δ)
        = kT * s ((mu - e k i) / kT) + (mu - e k i) * f ((mu - e k i) / kT) + kT * δ := by
      field_simp
    rw [e1, e2] at this
    linarith
  have h2 := mul_le_mul_of_nonneg_left (Finset.sum_le_sum fun i (_ : i ∈ Finset.univ) => h1 i) (hw k)
  simp only [Finset.sum_sub_distrib, Finset.sum_add_distrib, Finset.sum_const, Finset.card_univ, Fintype.card_fin,
    nsmul_eq_mul, ← Finset.mul_sum] at h2 ⊢
  linarith

end Nlcg
