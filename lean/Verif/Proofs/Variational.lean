import Verif.Spec.Variational
import Verif.Proofs.Smearing
import Verif.Proofs.Physical
import Verif.Props.Geodesic
import Mathlib.Data.Fin.Tuple.Sort
import Mathlib.Analysis.Calculus.Deriv.MeanValue

/-! # Helper lemmas for the variational principle -/

namespace Nlcg
open Matrix Spec Real ComplexOrder

/-! ## One level -/

/-- the occupation `f(y)` minimises -/
theorem dual_of_deriv {f s d : ℝ → ℝ} (hf : ∀ x, HasDerivAt f (d x) x) (hs : ∀ x, HasDerivAt s (-x * d x) x)
    (hd : ∀ x, 0 ≤ d x) (x y : ℝ) : s x + y * f x ≤ s y + y * f y := by
  have h : ∀ z, HasDerivAt (fun z => s z + y * f z) ((y - z) * d z) z := fun z =>
    hd_to ((hs z).add ((hf z).const_mul y)) (fun _ => rfl) (by ring)
  have hc : Continuous fun z => s z + y * f z := continuous_iff_continuousAt.2 fun z => (h z).continuousAt
  rcases le_total x y with hxy | hxy
  · refine monotoneOn_of_deriv_nonneg (convex_Iic y) hc.continuousOn
      (fun z _ => (h z).differentiableAt.differentiableWithinAt) (fun z hz => ?_) hxy (Set.mem_Iic.2 le_rfl) hxy
    rw [interior_Iic] at hz
    rw [(h z).deriv]
    exact mul_nonneg (sub_nonneg.2 (le_of_lt hz)) (hd z)
  · refine antitoneOn_of_deriv_nonpos (convex_Ici y) hc.continuousOn
      (fun z _ => (h z).differentiableAt.differentiableWithinAt) (fun z hz => ?_) (Set.mem_Ici.2 le_rfl) hxy hxy
    rw [interior_Ici] at hz
    rw [(h z).deriv]
    exact mul_nonpos_of_nonpos_of_nonneg (sub_nonpos.2 (le_of_lt hz)) (hd z)

theorem mixing_fermi (x : ℝ) : mixing (fermi x) = log (1 + exp x) - exp x * x / (1 + exp x) := by
  have hp := one_add_exp_pos x
  have hf : fermi x = exp x / (1 + exp x) := by
    have := fermi_eq x 1
    rw [one_mul, fdMid_eq, one_mul] at this
    exact this
  have hg : 1 - exp x / (1 + exp x) = 1 / (1 + exp x) := by field_simp; ring
  rw [mixing, hf, hg, log_div (exp_pos x).ne' hp.ne', log_exp, one_div, log_inv]
  field_simp
  ring

theorem dual_fermi (x y : ℝ) :
    mixing (fermi x) + y * fermi x ≤ mixing (fermi y) + y * fermi y := by
  refine dual_of_deriv (f := fermi) (s := fun x => mixing (fermi x)) (d := fun x => exp x / (1 + exp x) ^ 2)
    (fun x => ?_) (fun x => ?_) (fun x => by positivity) x y
  · refine hd_to (hasDerivAt_fdMid x 1) (fun y => ?_) (by rw [one_mul])
    rw [← fermi_eq, one_mul]
  · refine hd_to (hasDerivAt_fdEntropyMid x 1) (fun y => ?_) (by rw [one_mul])
    rw [mixing_fermi, one_mul]

theorem dual_gauss (x y : ℝ) : idealEntropy .gauss x + y * idealFn .gauss x
    ≤ idealEntropy .gauss y + y * idealFn .gauss y := by
  refine dual_of_deriv (d := fun x => gaussDelta x 1) (fun x => ?_) (fun x => ?_) (fun x => ?_) x y
  · refine hd_to (hasDerivAt_gaussFn x 1) (fun y => ?_) rfl
    simp only [idealFn, gaussFn]; ring
  · refine hd_to (hasDerivAt_gaussEntropy x 1) (fun y => ?_) rfl
    simp only [idealEntropy, gaussEntropy, neg_sq_eq]; ring
  · rw [gaussDelta]; positivity

theorem idealEntropy_spline (x : ℝ) : idealEntropy .gaussianSpline x =
    if x ≤ 0 then 0.25 * (-2 * exp (x * (√2 - x)) * x + exp 0.5 * √π * erfc (1 / √2 - x))
      else 0.25 * (2 * exp (-x * (√2 + x)) * x + exp 0.5 * √π * erfc (1 / √2 + x)) := by
  have h5 : (0.5 : ℝ) = 1 / 2 := by norm_num
  simp only [idealEntropy, erfc, h5]
  split_ifs with h
  · have : -(√2 * |x|) - x ^ 2 = x * (√2 - x) := by rw [abs_of_nonpos h]; ring
    rw [this, abs_of_nonpos h]
    ring_nf
  · have : -(√2 * |x|) - x ^ 2 = -x * (√2 + x) := by rw [abs_of_pos (not_le.1 h)]; ring
    rw [this, abs_of_pos (not_le.1 h)]
    ring

theorem dual_spline (x y : ℝ) : idealEntropy .gaussianSpline x + y * spline x
    ≤ idealEntropy .gaussianSpline y + y * spline y := by
  refine dual_of_deriv (s := idealEntropy .gaussianSpline) (f := spline)
    (d := fun x => if x ≤ 0 then 0.5 * exp ((√2 - x) * x) * (√2 - 2 * x)
      else 0.5 * exp (-x * (√2 + x)) * (√2 + 2 * x)) (fun x => ?_) (fun x => ?_) (fun x => ?_) x y
  · refine hd_to (hasDerivAt_gsMid x 1) (fun y => ?_) (by simp only [one_mul])
    rw [← spline_eq, one_mul]
  · refine hd_to (hasDerivAt_gsEntropyMid x) (fun y => idealEntropy_spline y) ?_
    simp only [mul_ite]
  · have := sqrt_nonneg (2 : ℝ)
    split_ifs with h
    · have : 0 ≤ √2 - 2 * x := by linarith
      positivity
    · have : 0 ≤ √2 + 2 * x := by linarith
      positivity

theorem dual_ideal {t : SmearType} (ht : Monotonic t) (x y : ℝ) :
    idealEntropy t x + y * idealFn t x ≤ idealEntropy t y + y * idealFn t y := by
  cases t with
  | fermiDirac => exact dual_fermi x y
  | gauss => exact dual_gauss x y
  | gaussianSpline => exact dual_spline x y
  | methfesselPaxton => exact ht.elim
  | cold => exact ht.elim

theorem idealFn_nonneg {t : SmearType} (ht : Monotonic t) (x : ℝ) : 0 ≤ idealFn t x := by
  cases t with
  | fermiDirac => rw [idealFn, fermi]; positivity
  | gauss =>
    have := neg_one_lt_erf x
    simp only [idealFn]; linarith
  | gaussianSpline =>
    have := gsMid_nonneg x (zero_le_one (α := ℝ))
    rwa [← spline_eq, one_mul] at this
  | methfesselPaxton => exact ht.elim
  | cold => exact ht.elim

/-- empty and full levels -/
theorem dual_fermi_limits (y : ℝ) : 0 ≤ mixing (fermi y) + y * fermi y ∧ y ≤ mixing (fermi y) + y * fermi y := by
  have hp := one_add_exp_pos y
  have hf : fermi y = exp y / (1 + exp y) := by
    have := fermi_eq y 1
    rw [one_mul, fdMid_eq, one_mul] at this
    exact this
  have : mixing (fermi y) + y * fermi y = log (1 + exp y) := by
    rw [mixing_fermi, hf]; ring
  rw [this]
  refine ⟨log_nonneg (by linarith [exp_pos y]), ?_⟩
  rw [le_log_iff_exp_le hp]
  linarith

theorem spline_neg : Filter.Tendsto (fun x : ℝ => spline (-x)) Filter.atTop (nhds 0) := by
  have hs := sqrt_nonneg (2 : ℝ)
  have lim : Filter.Tendsto (fun x : ℝ => exp (-x) / 2) Filter.atTop (nhds 0) := by
    simpa using tendsto_exp_neg_atTop_nhds_zero.div_const 2
  refine squeeze_zero' ?_ ?_ lim
  · filter_upwards with x using idealFn_nonneg (t := .gaussianSpline) trivial (-x)
  · filter_upwards [Filter.eventually_ge_atTop 1] with x hx
    rw [spline, if_pos (by linarith)]
    have : exp (√2 * -x - (-x) ^ 2) ≤ exp (-x) := exp_le_exp.2 (by nlinarith)
    linarith

theorem spline_top : Filter.Tendsto spline Filter.atTop (nhds 1) := by
  have hs := sqrt_nonneg (2 : ℝ)
  have lim : Filter.Tendsto (fun x : ℝ => exp (-x) / 2) Filter.atTop (nhds 0) := by
    simpa using tendsto_exp_neg_atTop_nhds_zero.div_const 2
  have : Filter.Tendsto (fun x : ℝ => 1 - spline x) Filter.atTop (nhds 0) := by
    refine squeeze_zero' ?_ ?_ lim
    · filter_upwards with x
      have := gsMid_le x (zero_le_one (α := ℝ))
      rw [← spline_eq, one_mul] at this
      linarith
    · filter_upwards [Filter.eventually_ge_atTop 1] with x hx
      rw [spline, if_neg (by linarith)]
      have : exp (-(√2 * x) - x ^ 2) ≤ exp (-x) := exp_le_exp.2 (by nlinarith)
      linarith
  simpa using this.const_sub 1

theorem dual_spline_limits (y : ℝ) : 0 ≤ idealEntropy .gaussianSpline y + y * spline y ∧
    y ≤ idealEntropy .gaussianSpline y + y * spline y := by
  have hpos : ∀ x, 0 ≤ idealEntropy .gaussianSpline x := fun x => by
    have := erfc_pos (1 / √2 + |x|)
    rw [erfc] at this
    simp only [idealEntropy]
    positivity
  have h0 : ∀ x, y * spline x ≤ idealEntropy .gaussianSpline y + y * spline y := fun x => by
    linarith [dual_spline x y, hpos x]
  have bot := spline_neg
  have top := spline_top
  constructor
  · have := le_of_tendsto (bot.const_mul y) (Filter.Eventually.of_forall fun x => h0 (-x))
    rwa [mul_zero] at this
  · have := le_of_tendsto (top.const_mul y) (Filter.Eventually.of_forall fun x => h0 x)
    rwa [mul_one] at this

theorem fd_tail {x : ℝ} (h : x ≤ -35) (h' : -40 ≤ x) :
    log (1 + exp x) - exp x * x / (1 + exp x) ≤ 41 * exp (-35) := by
  have he := exp_pos x
  have h1 : log (1 + exp x) ≤ exp x := by
    have := log_le_sub_one_of_pos (one_add_exp_pos x); linarith
  have h2 : -(exp x * x / (1 + exp x)) ≤ 40 * exp x := by
    rw [← neg_div, div_le_iff₀ (one_add_exp_pos x)]
    nlinarith
  have h3 : exp x ≤ exp (-35) := exp_le_exp.2 h
  linarith

/-- what the code computes for one level against the ideal level -/
theorem level_dual {t : SmearType} (ht : Monotonic t) {mo : ℝ} (h0 : 0 ≤ mo) (h1 : t = .gaussianSpline → 1 ≤ mo)
    (x y : ℝ) : (smearFns t).entropy x mo + y * (smearFns t).fn x mo
      ≤ mo * (idealEntropy t y + y * idealFn t y + cutoffError t) := by
  cases t with
  | fermiDirac =>
    show fdEntropy x mo + y * fdFn x mo ≤ mo * (mixing (fermi y) + y * fermi y + 41 * exp (-35))
    obtain ⟨l0, l1⟩ := dual_fermi_limits y
    have he := exp_pos (-35)
    rw [fdFn_eq_cut, fdEntropy]
    rcases lt_or_ge x (-35) with hx | hx
    · rw [if_pos hx, mul_zero, add_zero]
      split_ifs with h40
      · exact mul_nonneg h0 (by positivity)
      · refine mul_le_mul_of_nonneg_left ?_ h0
        have := fd_tail hx.le (abs_le.1 (not_lt.1 h40)).1
        linarith
    · rw [if_neg (show ¬ x < -35 from not_lt.2 hx)]
      by_cases h40 : 40 < x
      · rw [if_pos h40, if_pos (show |x| > 40 by rw [abs_of_pos (by linarith)]; exact h40), zero_add, mul_comm]
        refine mul_le_mul_of_nonneg_left ?_ h0
        linarith
      · rw [if_neg h40, if_neg (show ¬ |x| > 40 from not_lt.2 (abs_le.2 ⟨by linarith, not_lt.1 h40⟩)), ← mixing_fermi,
          ← fermi_eq]
        have := mul_le_mul_of_nonneg_left (dual_fermi x y) h0
        have h2 : 0 ≤ mo * (41 * exp (-35)) := by positivity
        linarith
  | gauss =>
    show gaussEntropy x mo + y * gaussFn x mo ≤ mo * (_ + y * _ + 0)
    have := mul_le_mul_of_nonneg_left (dual_gauss x y) h0
    refine le_trans (le_of_eq ?_) (this.trans (le_of_eq (by rw [add_zero])))
    simp only [idealEntropy, idealFn, gaussEntropy, gaussFn, neg_sq_eq]
    ring
  | gaussianSpline =>
    obtain ⟨l0, l1⟩ := dual_spline_limits y
    have hm := h1 rfl
    have hmid : gsEntropy x mo ≤ mo * idealEntropy .gaussianSpline x := by
      have hpos : 0 ≤ idealEntropy .gaussianSpline x := by
        have := erfc_pos (1 / √2 + |x|)
        rw [erfc] at this
        simp only [idealEntropy]
        positivity
      rw [gsEntropy]
      split_ifs with h7 hx
      · positivity
      · refine le_trans (le_of_eq ?_) (le_mul_of_one_le_left hpos hm)
        rw [idealEntropy_spline, if_neg (not_le.2 hx)]
      · refine le_trans (le_of_eq ?_) (le_mul_of_one_le_left hpos hm)
        rw [idealEntropy_spline, if_pos (not_lt.1 hx)]
    show gsEntropy x mo + y * gsFn x mo ≤ mo * (_ + y * spline y + 0)
    rw [add_zero, gsFn_eq_cut]
    by_cases ha : x < -8
    · rw [if_pos ha, gsEntropy, if_pos (by rw [abs_of_neg (by linarith)]; linarith), mul_zero, add_zero]
      exact mul_nonneg h0 l0
    · rw [if_neg ha]
      by_cases hb : 8 < x
      · rw [if_pos hb, gsEntropy, if_pos (by rw [abs_of_pos (by linarith)]; linarith), zero_add, mul_comm]
        exact mul_le_mul_of_nonneg_left l1 h0
      · rw [if_neg hb, ← spline_eq]
        have := mul_le_mul_of_nonneg_left (dual_spline x y) h0
        linarith
  | methfesselPaxton => exact ht.elim
  | cold => exact ht.elim

/-! ## Methfessel-Paxton -/

theorem mp_increasing {mo : ℝ} (hmo : 0 < mo) {x y : ℝ} (h0 : 0 ≤ x) (hx : x < √(3 / 2)) (hy : √(3 / 2) < y) :
    mpEntropy x mo + √(3 / 2) * mpFn x mo < mpEntropy y mo + √(3 / 2) * mpFn y mo := by
  have h : ∀ z, HasDerivAt (fun z => mpEntropy z mo + √(3 / 2) * mpFn z mo) ((√(3 / 2) - z) * mpDelta z mo) z := fun z =>
    hd_to ((hasDerivAt_mpEntropy z mo).add ((hasDerivAt_mpFn z mo).const_mul _)) (fun _ => rfl) (by ring)
  have hsq : √(3 / 2 : ℝ) * √(3 / 2) = 3 / 2 := mul_self_sqrt (by norm_num)
  have hr := sqrt_nonneg (3 / 2 : ℝ)
  have hpos : ∀ z, z ≠ √(3 / 2) → 0 ≤ z → 0 < (√(3 / 2) - z) * mpDelta z mo := fun z hz h0 => by
    have e : (√(3 / 2) - z) * mpDelta z mo = mo * exp (-(z * z)) / √π * ((√(3 / 2) - z) ^ 2 * (√(3 / 2) + z)) := by
      simp only [mpDelta]
      field_simp
      linear_combination -hsq
    have h1 : 0 < (√(3 / 2) - z) ^ 2 := by
      have : √(3 / 2) - z ≠ 0 := fun h => hz (by linarith)
      positivity
    have h2 : 0 < √(3 / 2 : ℝ) := sqrt_pos.2 (by norm_num)
    rw [e]
    positivity
  have hc : Continuous fun z => mpEntropy z mo + √(3 / 2) * mpFn z mo :=
    continuous_iff_continuousAt.2 fun z => (h z).continuousAt
  have m1 : StrictMonoOn (fun z => mpEntropy z mo + √(3 / 2) * mpFn z mo) (Set.Icc 0 √(3 / 2)) := by
    refine strictMonoOn_of_deriv_pos (convex_Icc _ _) hc.continuousOn fun z hz => ?_
    rw [interior_Icc] at hz
    rw [(h z).deriv]
    exact hpos z hz.2.ne hz.1.le
  have m2 : StrictMonoOn (fun z => mpEntropy z mo + √(3 / 2) * mpFn z mo) (Set.Ici √(3 / 2)) := by
    refine strictMonoOn_of_deriv_pos (convex_Ici _) hc.continuousOn fun z hz => ?_
    rw [interior_Ici] at hz
    rw [(h z).deriv]
    exact hpos z (ne_of_gt hz) (hr.trans (le_of_lt hz))
  exact (m1 ⟨h0, hx.le⟩ ⟨hr, le_rfl⟩ hx).trans (m2 (Set.mem_Ici.2 le_rfl) (Set.mem_Ici.2 hy.le) hy)

/-- two chemical potentials with the same number of electrons -/
theorem mp_twice {mo : ℝ} (hmo : 0 < mo) : ∃ x, 0 ≤ x ∧ x < √(3 / 2) ∧ mpFn x mo = mpFn 3 mo := by
  have hsq : √(3 / 2 : ℝ) * √(3 / 2) = 3 / 2 := mul_self_sqrt (by norm_num)
  have hr := sqrt_nonneg (3 / 2 : ℝ)
  have hc : Continuous fun z => mpFn z mo := continuous_iff_continuousAt.2 fun z => (hasDerivAt_mpFn z mo).continuousAt
  have hr3 : √(3 / 2 : ℝ) < 3 := by nlinarith
  have hdown : mpFn 3 mo < mpFn √(3 / 2) mo := by
    have m2 : StrictAntiOn (fun z => mpFn z mo) (Set.Ici √(3 / 2)) := by
      refine strictAntiOn_of_deriv_neg (convex_Ici _) hc.continuousOn fun z hz => ?_
      rw [interior_Ici] at hz
      have hz : √(3 / 2) < z := hz
      rw [(hasDerivAt_mpFn z mo).deriv]
      have : 3 / 2 < z * z := by nlinarith
      have h1 : 1 + 0.25 * (2 - 4 * (z * z)) < 0 := by linarith
      have h2 := exp_pos (-(z * z))
      have h3 := sqrtpi_pos
      simp only [mpDelta]
      exact div_neg_of_neg_of_pos (mul_neg_of_pos_of_neg (by positivity) h1) h3
    exact m2 (Set.mem_Ici.2 le_rfl) (Set.mem_Ici.2 hr3.le) hr3
  have h0 : mpFn 0 mo ≤ mpFn 3 mo := by
    have h1 : 0 < erf 3 := by rw [← erf_zero]; exact erf_strictMono (by norm_num)
    simp only [mpFn, erf_zero]
    refine mul_le_mul_of_nonneg_left ?_ (by positivity)
    have : 0 ≤ exp (-(3 * 3 : ℝ)) * 3 / √π := by positivity
    simp only [mul_zero, zero_div]
    linarith
  obtain ⟨x, hx, he⟩ := intermediate_value_Icc hr hc.continuousOn ⟨h0, hdown.le⟩
  refine ⟨x, hx.1, lt_of_le_of_ne hx.2 fun h => ?_, he⟩
  rw [h] at he
  exact hdown.ne' he

/-! ## Orbitals against the lowest eigenvectors -/

variable {N B : ℕ}

theorem levels_eq {K : ℕ} {n b : Fin K → ℕ} (H : (k : Fin K) → Mat (n k) (n k)) (X : Orbitals n b) (k : Fin K) (i : Fin (b k)) :
    levels H X k i = expectation (H k) (X k *ᵥ Pi.single i 1) := by
  rw [levels, expectation, star_mulVec, ← dotProduct_mulVec]
  simp only [Matrix.mulVec_mulVec]
  rw [mulVec_single_one]
  simp [dotProduct, Pi.single_apply, Matrix.mul_assoc, apply_ite star]

/-- an orbital splits into its part in the lowest states and a rest that lies above all of them -/
theorem split_energy {H S : Mat N N} (hH : H.IsHermitian) (hS : S.PosSemidef) {V : Mat N B} {e : Fin B → ℝ}
    (hV : Lowest H S V e) (v : Fin N → ℂ) (hv : expectation S v = 1) :
    ∃ r, 0 ≤ r ∧ r + ∑ j, Complex.normSq ((Vᴴ *ᵥ (S *ᵥ v)) j) = 1 ∧
      ∀ j0, (∑ j, Complex.normSq ((Vᴴ *ᵥ (S *ᵥ v)) j) * e j) + r * e j0 ≤ expectation H v := by
  set c := Vᴴ *ᵥ (S *ᵥ v) with hc
  set u := v - V *ᵥ c with hu
  have hn : (star c ⬝ᵥ c).re = ∑ i, Complex.normSq (c i) := by
    rw [dotProduct, Complex.re_sum]
    refine Finset.sum_congr rfl fun i _ => ?_
    simp [Complex.normSq_apply]
  have hn' : (star c ⬝ᵥ (diagonal (fun i => (e i : ℂ)) *ᵥ c)).re = ∑ i, Complex.normSq (c i) * e i := by
    rw [dotProduct, Complex.re_sum]
    refine Finset.sum_congr rfl fun i _ => ?_
    rw [mulVec_diagonal, Pi.star_apply]
    generalize c i = z
    simp [Complex.normSq_apply]
    ring
  have hperp : Vᴴ *ᵥ (S *ᵥ u) = 0 := by
    rw [hu, mulVec_sub, mulVec_sub, ← hc]
    simp only [Matrix.mulVec_mulVec]
    rw [hV.ortho, Matrix.one_mulVec, sub_self]
  have hvu : v = V *ᵥ c + u := by rw [hu]; abel
  have hHV : ∀ z, H *ᵥ (V *ᵥ z) = S *ᵥ (V *ᵥ (diagonal (fun i => (e i : ℂ)) *ᵥ z)) := fun z => by
    simp only [Matrix.mulVec_mulVec]
    rw [hV.eigen, Matrix.mul_assoc]
  have hper1 : ∀ z, star u ⬝ᵥ (S *ᵥ (V *ᵥ z)) = 0 := fun z => by
    have : star (Vᴴ *ᵥ (S *ᵥ u)) ⬝ᵥ z = star u ⬝ᵥ (S *ᵥ (V *ᵥ z)) := by
      rw [star_mulVec, star_mulVec, conjTranspose_conjTranspose, hS.isHermitian.eq, ← dotProduct_mulVec, ← dotProduct_mulVec]
    rw [← this, hperp]
    simp
  have hper2 : ∀ z, star (V *ᵥ z) ⬝ᵥ (S *ᵥ u) = 0 := fun z => by
    rw [star_mulVec, ← dotProduct_mulVec, hperp]
    simp
  have hVV : ∀ z z', star (V *ᵥ z) ⬝ᵥ (S *ᵥ (V *ᵥ z')) = star z ⬝ᵥ z' := fun z z' => by
    rw [star_mulVec, ← dotProduct_mulVec]
    simp only [Matrix.mulVec_mulVec]
    rw [hV.ortho, Matrix.one_mulVec]
  have hHu : ∀ z, star (V *ᵥ z) ⬝ᵥ (H *ᵥ u) = 0 := fun z => by
    have : star u ⬝ᵥ (H *ᵥ (V *ᵥ z)) = 0 := by rw [hHV, hper1]
    have h2 := congrArg star this
    rw [star_dotProduct, star_mulVec, hH.eq, ← dotProduct_mulVec, star_zero] at h2
    rw [← h2, star_star]
  have eS : expectation S v = ∑ i, Complex.normSq (c i) + expectation S u := by
    have : star v ⬝ᵥ (S *ᵥ v) = star c ⬝ᵥ c + star u ⬝ᵥ (S *ᵥ u) := by
      conv_lhs => rw [hvu]
      rw [star_add, mulVec_add, add_dotProduct, dotProduct_add, dotProduct_add, hVV, hper1, hper2]
      ring
    rw [expectation, this, Complex.add_re, hn]
    rfl
  have eH : expectation H v = ∑ i, Complex.normSq (c i) * e i + expectation H u := by
    have : star v ⬝ᵥ (H *ᵥ v) = star c ⬝ᵥ (diagonal (fun i => (e i : ℂ)) *ᵥ c) + star u ⬝ᵥ (H *ᵥ u) := by
      conv_lhs => rw [hvu]
      rw [star_add, mulVec_add, add_dotProduct, dotProduct_add, dotProduct_add, hHu, hHV, hVV, hper1]
      ring
    rw [expectation, this, Complex.add_re, hn']
    rfl
  refine ⟨expectation S u, (Complex.le_def.1 (hS.dotProduct_mulVec_nonneg u)).1, by rw [← hv, eS, add_comm], fun j0 => ?_⟩
  rw [eH, mul_comm (expectation S u)]
  have := hV.above u hperp j0
  linarith

/-- sums over orthonormal orbitals are bounded by sums over the lowest states -/
theorem ky_fan {H S : Mat N N} (hH : H.IsHermitian) (hS : S.PosSemidef) {V X : Mat N B} {e : Fin B → ℝ}
    (hV : Lowest H S V e) (hX : SOrtho S X) {s f : Fin B → ℝ} {G : ℝ → ℝ} (hf : ∀ i, 0 ≤ f i) (hG : Antitone G)
    (h : ∀ i x, s i - x * f i ≤ G x) :
    ∑ i, (s i - expectation H (X *ᵥ Pi.single i 1) * f i) ≤ ∑ j, G (e j) := by
  rcases Nat.eq_zero_or_pos B with rfl | hB
  · simp
  have : Nonempty (Fin B) := ⟨⟨0, hB⟩⟩
  obtain ⟨j0, hj0⟩ := Finite.exists_max e
  have hv : ∀ i, expectation S (X *ᵥ Pi.single i 1) = 1 := fun i => by
    rw [expectation, star_mulVec, ← dotProduct_mulVec]
    simp only [Matrix.mulVec_mulVec]
    rw [hX, Matrix.one_mulVec]
    simp [dotProduct, Pi.single_apply, apply_ite star]
  have hsp := fun i => split_energy hH hS hV _ (hv i)
  choose r hr0 hr1 hr2 using hsp
  set c : Fin B → Fin B → ℝ := fun i j => Complex.normSq ((Vᴴ *ᵥ (S *ᵥ (X *ᵥ Pi.single i 1))) j) with hc
  have hb : ∀ j, ∑ i, c i j ≤ 1 := fun j => by
    have hV1 : expectation S (V *ᵥ Pi.single j 1) = 1 := by
      rw [expectation, star_mulVec, ← dotProduct_mulVec]
      simp only [Matrix.mulVec_mulVec]
      rw [hV.ortho, Matrix.one_mulVec]
      simp [dotProduct, Pi.single_apply, apply_ite star]
    have := bessel hS hX (V *ᵥ Pi.single j 1)
    rw [hV1] at this
    refine le_trans (le_of_eq (Finset.sum_congr rfl fun i _ => ?_)) this
    have e1 : (Vᴴ *ᵥ (S *ᵥ (X *ᵥ Pi.single i 1))) j = (Vᴴ * (S * X)) j i := by
      rw [Matrix.mulVec_mulVec, Matrix.mulVec_mulVec, mulVec_single_one, Matrix.mul_assoc]; rfl
    have e2 : (Xᴴ *ᵥ (S *ᵥ (V *ᵥ Pi.single j 1))) i = (Xᴴ * (S * V)) i j := by
      rw [Matrix.mulVec_mulVec, Matrix.mulVec_mulVec, mulVec_single_one, Matrix.mul_assoc]; rfl
    have e3 : Xᴴ * (S * V) = (Vᴴ * (S * X))ᴴ := by
      rw [conjTranspose_mul, conjTranspose_mul, conjTranspose_conjTranspose, hS.isHermitian.eq, Matrix.mul_assoc]
    simp only [hc]
    rw [e1, e2, e3, conjTranspose_apply]
    exact (Complex.normSq_conj _).symm
  have h1 : ∀ i, s i - expectation H (X *ᵥ Pi.single i 1) * f i ≤ ∑ j, c i j * G (e j) + r i * G (e j0) := fun i => by
    have hsum : ∑ j, c i j * (s i - e j * f i) ≤ ∑ j, c i j * G (e j) :=
      Finset.sum_le_sum fun j _ => mul_le_mul_of_nonneg_left (h i (e j)) (Complex.normSq_nonneg _)
    have hr := mul_le_mul_of_nonneg_left (h i (e j0)) (hr0 i)
    have he : ∑ j, c i j * (s i - e j * f i) = (∑ j, c i j) * s i - (∑ j, c i j * e j) * f i := by
      rw [Finset.sum_mul, Finset.sum_mul, ← Finset.sum_sub_distrib]
      exact Finset.sum_congr rfl fun j _ => by ring
    have hk := mul_le_mul_of_nonneg_right (hr2 i j0) (hf i)
    have h11 : r i + ∑ j, c i j = 1 := hr1 i
    have h12 : (∑ j, c i j) = 1 - r i := by linarith
    rw [he, h12] at hsum
    have hk' : ((∑ j, c i j * e j) + r i * e j0) * f i ≤ expectation H (X *ᵥ Pi.single i 1) * f i := hk
    nlinarith
  refine (Finset.sum_le_sum fun i _ => h1 i).trans ?_
  rw [Finset.sum_add_distrib, Finset.sum_comm, ← Finset.sum_mul]
  have hrs : ∑ i, r i = ∑ j, (1 - ∑ i, c i j) := by
    rw [Finset.sum_sub_distrib, Finset.sum_comm (f := fun j i => c i j), ← Finset.sum_sub_distrib]
    refine Finset.sum_congr rfl fun i _ => ?_
    have h11 : r i + ∑ j, c i j = 1 := hr1 i
    linarith
  rw [hrs, Finset.sum_mul, ← Finset.sum_add_distrib]
  refine Finset.sum_le_sum fun j _ => ?_
  rw [← Finset.sum_mul]
  have := mul_le_mul_of_nonneg_left (hG (hj0 j)) (sub_nonneg.2 (hb j))
  linarith

/-! ## The exact solution exists -/

theorem normSq_sum (c : Fin N → ℂ) : (star c ⬝ᵥ c).re = ∑ i, Complex.normSq (c i) := by
  rw [dotProduct, Complex.re_sum]
  refine Finset.sum_congr rfl fun i _ => ?_
  simp [Complex.normSq_apply]

theorem normSq_sum_diag (c : Fin N → ℂ) (e : Fin N → ℝ) :
    (star c ⬝ᵥ (diagonal (fun i => (e i : ℂ)) *ᵥ c)).re = ∑ i, Complex.normSq (c i) * e i := by
  rw [dotProduct, Complex.re_sum]
  refine Finset.sum_congr rfl fun i _ => ?_
  rw [mulVec_diagonal, Pi.star_apply]
  generalize c i = z
  simp [Complex.normSq_apply]
  ring

theorem exists_basis {S : Mat N N} (hS : S.PosDef) : ∃ Q : Mat N N, Qᴴ * (S * Q) = 1 := by
  have hi : Function.Injective (1 : Mat N N).mulVec := by
    intro a c h
    simpa using h
  obtain ⟨⟨Q, hQ⟩, -⟩ := C46_defined refLapack_ok refLapack_total hS hi
  exact ⟨Q, C46_orthonormal refLapack_ok hS hi hQ⟩

theorem exists_lowest {H S : Mat N N} (hH : H.IsHermitian) (hS : S.PosDef) (hB : B ≤ N) :
    ∃ (V : Mat N B) (e : Fin B → ℝ), Lowest H S V e := by
  obtain ⟨Q, hQ⟩ := exists_basis hS
  have hA : (Qᴴ * (H * Q)).IsHermitian := by
    rw [IsHermitian, conjTranspose_mul, conjTranspose_mul, conjTranspose_conjTranspose, hH.eq, Matrix.mul_assoc]
  obtain ⟨l, U, hlU⟩ := eigh_total refLapack_total hA
  obtain ⟨hu, ha⟩ := refLapack_ok.eigh hA hlU
  set W : Mat N N := Q * U with hW
  have hWS : Wᴴ * (S * W) = 1 := by
    have : Wᴴ * (S * W) = Uᴴ * (Qᴴ * (S * Q)) * U := by
      rw [hW, conjTranspose_mul]; simp only [Matrix.mul_assoc]
    rw [this, hQ, Matrix.mul_one, hu]
  have hSW : S * (W * Wᴴ) = 1 := by
    have h1 : (Wᴴ * S) * W = 1 := by rw [Matrix.mul_assoc]; exact hWS
    have h2 := mul_eq_one_comm.1 h1
    have h3 := congrArg conjTranspose h2
    rw [conjTranspose_mul, conjTranspose_mul, conjTranspose_conjTranspose, hS.isHermitian.eq, conjTranspose_one,
      Matrix.mul_assoc] at h3
    exact h3
  have hWW : W * (Wᴴ * S) = 1 := by
    have h1 : (Wᴴ * S) * W = 1 := by rw [Matrix.mul_assoc]; exact hWS
    exact mul_eq_one_comm.1 h1
  have hWH : Wᴴ * (H * W) = diagonal fun i => (l i : ℂ) := by
    have : Wᴴ * (H * W) = Uᴴ * ((Qᴴ * (H * Q)) * U) := by
      rw [hW, conjTranspose_mul]; simp only [Matrix.mul_assoc]
    rw [this, ha, ← Matrix.mul_assoc, hu, Matrix.one_mul]
  have hHW : H * W = S * W * diagonal fun i => (l i : ℂ) := by
    rw [← hWH]
    calc H * W = S * (W * Wᴴ) * (H * W) := by rw [hSW, Matrix.one_mul]
      _ = S * W * (Wᴴ * (H * W)) := by simp only [Matrix.mul_assoc]
  set p : Fin B → Fin N := fun j => Tuple.sort l (Fin.castLE hB j) with hp
  have hpi : Function.Injective p := (Tuple.sort l).injective.comp (Fin.castLE_injective hB)
  refine ⟨W.submatrix id p, fun j => l (p j), ?_, ?_, fun v hv j => ?_⟩
  · have : (W.submatrix id p)ᴴ * (S * W.submatrix id p) = (Wᴴ * (S * W)).submatrix p p := by
      ext i j; rfl
    rw [SOrtho, this, hWS, submatrix_one _ hpi]
  · have h1 : H * W.submatrix id p = (H * W).submatrix id p := by ext i j; rfl
    rw [h1, hHW]
    ext i j
    rw [mul_diagonal, submatrix_apply, id, mul_diagonal]
    rfl
  · set c := Wᴴ *ᵥ (S *ᵥ v) with hc
    have hvc : v = W *ᵥ c := by
      rw [hc, Matrix.mulVec_mulVec, Matrix.mulVec_mulVec, Matrix.mul_assoc, hWW, Matrix.one_mulVec]
    have hz : ∀ j, c (p j) = 0 := fun j => congrFun hv j
    have eS : expectation S v = ∑ i, Complex.normSq (c i) := by
      rw [← normSq_sum, expectation, hvc, star_mulVec, ← dotProduct_mulVec, Matrix.mulVec_mulVec, Matrix.mulVec_mulVec,
        Matrix.mul_assoc, hWS, Matrix.one_mulVec]
    have eH : expectation H v = ∑ i, Complex.normSq (c i) * l i := by
      rw [← normSq_sum_diag, expectation, hvc, star_mulVec, ← dotProduct_mulVec, Matrix.mulVec_mulVec, Matrix.mulVec_mulVec,
        Matrix.mul_assoc, hWH]
    rw [eS, eH, Finset.mul_sum]
    refine Finset.sum_le_sum fun i _ => ?_
    by_cases hi : c i = 0
    · simp [hi]
    · rw [mul_comm]
      refine mul_le_mul_of_nonneg_left ?_ (Complex.normSq_nonneg _)
      have hm := Tuple.monotone_sort l
      have h2 : Fin.castLE hB j ≤ (Tuple.sort l).symm i := by
        by_contra hlt
        have hlt : (Tuple.sort l).symm i < Fin.castLE hB j := not_le.1 hlt
        have hb : ((Tuple.sort l).symm i).1 < B := lt_of_lt_of_le (Fin.lt_def.1 hlt) j.2.le
        refine hi ?_
        have : i = p ⟨((Tuple.sort l).symm i).1, hb⟩ := by
          simp [hp]
        rw [this]
        exact hz _
      have h3 := hm h2
      simpa [hp] using h3

theorem idealFn_continuous {t : SmearType} (ht : Monotonic t) : Continuous (idealFn t) := by
  cases t with
  | fermiDirac =>
    have : idealFn .fermiDirac = fun x => fdMid x 1 := funext fun x => by rw [← fermi_eq, one_mul]; rfl
    rw [this]
    exact continuous_iff_continuousAt.2 fun x => (hasDerivAt_fdMid x 1).continuousAt
  | gaussianSpline =>
    have : idealFn .gaussianSpline = fun x => gsMid x 1 := funext fun x => by rw [← spline_eq, one_mul]; rfl
    rw [this]
    exact continuous_iff_continuousAt.2 fun x => (hasDerivAt_gsMid x 1).continuousAt
  | gauss =>
    have : idealFn .gauss = fun x => gaussFn x 1 := funext fun x => by simp only [idealFn, gaussFn]; ring
    rw [this]
    exact continuous_iff_continuousAt.2 fun x => (hasDerivAt_gaussFn x 1).continuousAt
  | methfesselPaxton => exact ht.elim
  | cold => exact ht.elim

theorem spline_bot : Filter.Tendsto spline Filter.atBot (nhds 0) := by
  have := spline_neg.comp Filter.tendsto_neg_atBot_atTop
  refine this.congr fun x => ?_
  simp

theorem idealFn_bot {t : SmearType} (ht : Monotonic t) : Filter.Tendsto (idealFn t) Filter.atBot (nhds 0) := by
  cases t with
  | fermiDirac =>
    have h : Filter.Tendsto (fun x : ℝ => exp (-x) + 1) Filter.atBot Filter.atTop :=
      Filter.tendsto_atTop_add_const_right _ _ (tendsto_exp_atTop.comp Filter.tendsto_neg_atBot_atTop)
    have := h.inv_tendsto_atTop
    refine this.congr fun x => ?_
    simp [idealFn, fermi]
  | gaussianSpline => exact spline_bot
  | gauss =>
    have := (tendsto_erf_atBot.const_add 1).div_const 2
    norm_num at this
    exact this
  | methfesselPaxton => exact ht.elim
  | cold => exact ht.elim

theorem idealFn_top {t : SmearType} (ht : Monotonic t) : Filter.Tendsto (idealFn t) Filter.atTop (nhds 1) := by
  cases t with
  | fermiDirac =>
    have h : Filter.Tendsto (fun x : ℝ => 1 / (exp (-x) + 1)) Filter.atTop (nhds (1 / (0 + 1))) :=
      tendsto_const_nhds.div (tendsto_exp_neg_atTop_nhds_zero.add_const 1) (by norm_num)
    norm_num at h
    refine h.congr fun x => ?_
    simp [idealFn, fermi]
  | gaussianSpline => exact spline_top
  | gauss =>
    have := (tendsto_erf_atTop.const_add 1).div_const 2
    norm_num at this
    exact this
  | methfesselPaxton => exact ht.elim
  | cold => exact ht.elim

theorem exists_mu {K : ℕ} {b : Fin K → ℕ} {t : SmearType} (ht : Monotonic t) {T mo : ℝ} (hT : 0 < T) (wk : Fin K → ℝ) (e : Bands b)
    {ne : ℝ} (h0 : 0 < ne) (h1 : ne < ∑ k, wk k * (b k * mo)) : ∃ mu, exactElectrons t T mo wk e mu = ne := by
  have hkT : (0 : ℝ) < kB * T := mul_pos kB_pos hT
  have harg : ∀ x : ℝ, Continuous fun mu : ℝ => (mu - x) / (kB * T) := fun x =>
    (continuous_id.sub continuous_const).div_const _
  have hbot : ∀ x : ℝ, Filter.Tendsto (fun mu : ℝ => (mu - x) / (kB * T)) Filter.atBot Filter.atBot := fun x =>
    Filter.Tendsto.atBot_div_const hkT (Filter.tendsto_atBot_add_const_right _ (-x) Filter.tendsto_id)
  have htop : ∀ x : ℝ, Filter.Tendsto (fun mu : ℝ => (mu - x) / (kB * T)) Filter.atTop Filter.atTop := fun x =>
    Filter.Tendsto.atTop_div_const hkT (Filter.tendsto_atTop_add_const_right _ (-x) Filter.tendsto_id)
  have hcont : Continuous fun mu => exactElectrons t T mo wk e mu := by
    unfold exactElectrons
    refine continuous_finsetSum _ fun k _ => continuous_const.mul (continuous_finsetSum _ fun i _ => continuous_const.mul ?_)
    exact (idealFn_continuous ht).comp (harg _)
  have l0 : Filter.Tendsto (fun mu => exactElectrons t T mo wk e mu) Filter.atBot (nhds (∑ k, wk k * ∑ _i : Fin (b k), mo * 0)) := by
    unfold exactElectrons
    exact tendsto_finsetSum _ fun k _ => (tendsto_finsetSum _ fun i _ => ((idealFn_bot ht).comp (hbot _)).const_mul mo).const_mul _
  have l1 : Filter.Tendsto (fun mu => exactElectrons t T mo wk e mu) Filter.atTop (nhds (∑ k, wk k * ∑ _i : Fin (b k), mo * 1)) := by
    unfold exactElectrons
    exact tendsto_finsetSum _ fun k _ => (tendsto_finsetSum _ fun i _ => ((idealFn_top ht).comp (htop _)).const_mul mo).const_mul _
  simp only [mul_zero, Finset.sum_const_zero, mul_one, Finset.sum_const, Finset.card_univ, Fintype.card_fin, nsmul_eq_mul] at l0 l1
  obtain ⟨a, ha⟩ := (l0.eventually (gt_mem_nhds h0)).exists
  obtain ⟨c, hc⟩ := (l1.eventually (lt_mem_nhds h1)).exists
  exact mem_range_of_exists_le_of_exists_ge hcont ⟨a, ha.le⟩ ⟨c, hc.le⟩

end Nlcg
