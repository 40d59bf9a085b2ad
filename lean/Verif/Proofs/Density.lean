import Verif.Proofs.Thermo
import Verif.Spec.Density

/-! # A small error of the free energy means a small error of the density -/

namespace Nlcg
open Matrix Spec Real ComplexOrder

/-! ## One level -/

/-- the excess of a level grows with the square of the error of the occupation -/
theorem strong_of_deriv {f s d : ℝ → ℝ} (hf : ∀ x, HasDerivAt f (d x) x) (hs : ∀ x, HasDerivAt s (-x * d x) x)
    (hd : ∀ x, 0 ≤ d x) {q : ℝ} (hq : ∀ x, 2 * q * d x ≤ 1) (x y : ℝ) :
    s x + y * f x + q * (f x - f y) ^ 2 ≤ s y + y * f y := by
  have hmono : Monotone f := monotone_of_deriv_nonneg (fun x => (hf x).differentiableAt) fun x => by
    rw [(hf x).deriv]; exact hd x
  have h : ∀ z, HasDerivAt (fun z => s z + z * f z - s x - z * f x - q * (f x - f z) ^ 2)
      ((f z - f x) * (1 - 2 * q * d z)) z := fun z => by
    have h1 := ((hs z).add ((hasDerivAt_id z).mul (hf z))).sub_const (s x)
    have h2 := (h1.sub ((hasDerivAt_id z).mul_const (f x))).sub ((((hf z).const_sub (f x)).pow 2).const_mul q)
    refine hd_to h2 (fun _ => rfl) ?_
    simp only [id, Nat.cast_ofNat]
    ring
  have hc : Continuous fun z => s z + z * f z - s x - z * f x - q * (f x - f z) ^ 2 :=
    continuous_iff_continuousAt.2 fun z => (h z).continuousAt
  have key : s x + x * f x - s x - x * f x - q * (f x - f x) ^ 2
      ≤ s y + y * f y - s x - y * f x - q * (f x - f y) ^ 2 := by
    rcases le_total x y with hxy | hxy
    · refine monotoneOn_of_deriv_nonneg (convex_Ici x) hc.continuousOn
        (fun z _ => (h z).differentiableAt.differentiableWithinAt) (fun z hz => ?_) (Set.mem_Ici.2 le_rfl) hxy hxy
      rw [interior_Ici] at hz
      rw [(h z).deriv]
      exact mul_nonneg (sub_nonneg.2 (hmono (le_of_lt hz))) (by linarith [hq z])
    · refine antitoneOn_of_deriv_nonpos (convex_Iic x) hc.continuousOn
        (fun z _ => (h z).differentiableAt.differentiableWithinAt) (fun z hz => ?_) hxy (Set.mem_Iic.2 le_rfl) hxy
      rw [interior_Iic] at hz
      rw [(h z).deriv]
      exact mul_nonpos_of_nonpos_of_nonneg (sub_nonpos.2 (hmono (le_of_lt hz))) (by linarith [hq z])
  have e0 : (f x - f x) ^ 2 = 0 := by ring
  rw [e0] at key
  linarith

theorem strong_gauss (x y : ℝ) : idealEntropy .gauss x + y * idealFn .gauss x
    + √π / 2 * (idealFn .gauss x - idealFn .gauss y) ^ 2 ≤ idealEntropy .gauss y + y * idealFn .gauss y := by
  refine strong_of_deriv (d := fun x => gaussDelta x 1) (fun x => ?_) (fun x => ?_) (fun x => ?_) (fun x => ?_) x y
  · refine hd_to (hasDerivAt_gaussFn x 1) (fun y => ?_) rfl
    simp only [idealFn, gaussFn]; ring
  · refine hd_to (hasDerivAt_gaussEntropy x 1) (fun y => ?_) rfl
    simp only [idealEntropy, gaussEntropy, neg_sq_eq]; ring
  · rw [gaussDelta]; positivity
  · have hp : 0 < √π := sqrt_pos.2 pi_pos
    have he : exp (-x * x) ≤ 1 := exp_le_one_iff.2 (by nlinarith [mul_self_nonneg x])
    rw [gaussDelta]
    rw [show 2 * (√π / 2) = √π by ring, ← mul_div_assoc, div_le_one hp]
    simp only [neg_sq_eq, one_mul] at *
    nlinarith

theorem strong_fermi (x y : ℝ) : mixing (fermi x) + y * fermi x + 2 * (fermi x - fermi y) ^ 2
    ≤ mixing (fermi y) + y * fermi y := by
  refine strong_of_deriv (f := fermi) (s := fun x => mixing (fermi x)) (d := fun x => exp x / (1 + exp x) ^ 2)
    (fun x => ?_) (fun x => ?_) (fun x => by positivity) (fun x => ?_) x y
  · refine hd_to (hasDerivAt_fdMid x 1) (fun y => ?_) (by rw [one_mul])
    rw [← fermi_eq, one_mul]
  · refine hd_to (hasDerivAt_fdEntropyMid x 1) (fun y => ?_) (by rw [one_mul])
    rw [mixing_fermi, one_mul]
  · have hp := exp_pos x
    rw [← mul_div_assoc, div_le_one (by positivity)]
    nlinarith [sq_nonneg (1 - exp x)]

theorem strong_spline (x y : ℝ) : idealEntropy .gaussianSpline x + y * spline x + 1 / √2 * (spline x - spline y) ^ 2
    ≤ idealEntropy .gaussianSpline y + y * spline y := by
  have h2 : (√2 : ℝ) * √2 = 2 := mul_self_sqrt (by norm_num)
  have hp : (0 : ℝ) < √2 := sqrt_pos.2 (by norm_num)
  have slope : ∀ z : ℝ, 0 ≤ z → 2 * (1 / √2) * (0.5 * exp (-z * (√2 + z)) * (√2 + 2 * z)) ≤ 1 := fun z hz => by
    have h1 : exp (-z * (√2 + z)) * exp (z * (√2 + z)) = 1 := by rw [← exp_add]; ring_nf; exact exp_zero
    have h3 := add_one_le_exp (z * (√2 + z))
    have h4 : √2 + 2 * z ≤ √2 * exp (z * (√2 + z)) := by
      have := mul_le_mul_of_nonneg_left h3 hp.le
      nlinarith [mul_nonneg hp.le (mul_self_nonneg z)]
    have h5 := mul_le_mul_of_nonneg_left h4 (exp_pos (-z * (√2 + z))).le
    have h6 : exp (-z * (√2 + z)) * (√2 + 2 * z) ≤ √2 := by
      calc _ ≤ _ := h5
        _ = √2 * (exp (-z * (√2 + z)) * exp (z * (√2 + z))) := by ring
        _ = √2 := by rw [h1, mul_one]
    calc 2 * (1 / √2) * (0.5 * exp (-z * (√2 + z)) * (√2 + 2 * z))
        = exp (-z * (√2 + z)) * (√2 + 2 * z) / √2 := by ring
      _ ≤ 1 := (div_le_one hp).2 h6
  refine strong_of_deriv (s := idealEntropy .gaussianSpline) (f := spline)
    (d := fun x => if x ≤ 0 then 0.5 * exp ((√2 - x) * x) * (√2 - 2 * x)
      else 0.5 * exp (-x * (√2 + x)) * (√2 + 2 * x)) (fun x => ?_) (fun x => ?_) (fun x => ?_) (fun x => ?_) x y
  · refine hd_to (hasDerivAt_gsMid x 1) (fun y => ?_) (by simp only [one_mul])
    rw [← spline_eq, one_mul]
  · refine hd_to (hasDerivAt_gsEntropyMid x) (fun y => idealEntropy_spline y) ?_
    simp only [mul_ite]
  · split_ifs with h
    · have : 0 ≤ √2 - 2 * x := by linarith
      positivity
    · have : 0 ≤ √2 + 2 * x := by linarith
      positivity
  · split_ifs with h
    · have := slope (-x) (by linarith)
      rw [show - -x * (√2 + -x) = (√2 - x) * x by ring, show √2 + 2 * -x = √2 - 2 * x by ring] at this
      exact this
    · exact slope x (by linarith)

theorem strong_ideal {t : SmearType} (ht : Monotonic t) (x y : ℝ) :
    idealEntropy t x + y * idealFn t x + stiffness t * (idealFn t x - idealFn t y) ^ 2
      ≤ idealEntropy t y + y * idealFn t y := by
  cases t with
  | fermiDirac => exact strong_fermi x y
  | gauss => exact strong_gauss x y
  | gaussianSpline => exact strong_spline x y
  | methfesselPaxton => exact ht.elim
  | cold => exact ht.elim

theorem stiffness_pos {t : SmearType} (ht : Monotonic t) : 0 < stiffness t := by
  cases t with
  | fermiDirac => simp only [stiffness]; norm_num
  | gauss =>
    have : 0 < √π := sqrt_pos.2 pi_pos
    simp only [stiffness]; positivity
  | gaussianSpline => simp only [stiffness]; positivity
  | methfesselPaxton => exact ht.elim
  | cold => exact ht.elim

/-- empty and full levels -/
theorem strong_limits {t : SmearType} (ht : Monotonic t) (y : ℝ) :
    stiffness t * (0 - idealFn t y) ^ 2 ≤ idealEntropy t y + y * idealFn t y ∧
      y + stiffness t * (1 - idealFn t y) ^ 2 ≤ idealEntropy t y + y * idealFn t y := by
  have h0 : ∀ x, y * idealFn t x + stiffness t * (idealFn t x - idealFn t y) ^ 2 ≤ idealEntropy t y + y * idealFn t y :=
    fun x => by linarith [strong_ideal ht x y, idealEntropy_nonneg ht x]
  have lim : ∀ {l : Filter ℝ} {a : ℝ} [l.NeBot], Filter.Tendsto (idealFn t) l (nhds a) →
      y * a + stiffness t * (a - idealFn t y) ^ 2 ≤ idealEntropy t y + y * idealFn t y := fun hl =>
    le_of_tendsto ((hl.const_mul y).add (((hl.sub_const _).pow 2).const_mul _)) (Filter.Eventually.of_forall h0)
  have b := lim (idealFn_bot ht)
  have u := lim (idealFn_top ht)
  rw [mul_zero, zero_add] at b
  rw [mul_one] at u
  exact ⟨b, u⟩

/-- what the code computes for one level against the ideal level -/
theorem level_strong {t : SmearType} (ht : Monotonic t) {mo : ℝ} (h0 : 0 < mo) (h1 : t = .gaussianSpline → 1 ≤ mo)
    (x y : ℝ) : (smearFns t).entropy x mo + y * (smearFns t).fn x mo
        + stiffness t / mo * ((smearFns t).fn x mo - mo * idealFn t y) ^ 2
      ≤ mo * (idealEntropy t y + y * idealFn t y + cutoffError t) := by
  suffices h : ∃ a u, (smearFns t).fn x mo = mo * a ∧ (smearFns t).entropy x mo ≤ mo * u ∧
      u + y * a + stiffness t * (a - idealFn t y) ^ 2 ≤ idealEntropy t y + y * idealFn t y + cutoffError t by
    obtain ⟨a, u, ha, hu, h⟩ := h
    rw [ha]
    have h3 := mul_le_mul_of_nonneg_left h h0.le
    have h4 : stiffness t / mo * (mo * a - mo * idealFn t y) ^ 2 = mo * (stiffness t * (a - idealFn t y) ^ 2) := by
      field_simp
    rw [h4]
    linarith
  obtain ⟨l0, l1⟩ := strong_limits ht y
  cases t with
  | fermiDirac =>
    have he := exp_pos (-35)
    have hcut : cutoffError .fermiDirac = 41 * exp (-35) := rfl
    show ∃ a u, fdFn x mo = mo * a ∧ fdEntropy x mo ≤ mo * u ∧ _
    rw [fdFn_eq_cut, fdEntropy]
    rcases lt_or_ge x (-35) with hx | hx
    · refine ⟨0, 41 * exp (-35), by rw [if_pos hx, mul_zero], ?_, by rw [hcut]; linarith⟩
      split_ifs with h40
      · positivity
      · exact mul_le_mul_of_nonneg_left (fd_tail hx.le (abs_le.1 (not_lt.1 h40)).1) h0.le
    · rw [if_neg (show ¬ x < -35 from not_lt.2 hx)]
      by_cases h40 : 40 < x
      · refine ⟨1, 0, by rw [if_pos h40, mul_one], ?_, by rw [hcut]; linarith⟩
        rw [if_pos (show |x| > 40 by rw [abs_of_pos (by linarith)]; exact h40), mul_zero]
      · refine ⟨fermi x, mixing (fermi x), ?_, ?_, ?_⟩
        · rw [if_neg h40, ← fermi_eq]
        · rw [if_neg (show ¬ |x| > 40 from not_lt.2 (abs_le.2 ⟨by linarith, not_lt.1 h40⟩)), ← mixing_fermi]
        · have := strong_ideal (t := .fermiDirac) trivial x y
          simp only [idealFn, idealEntropy] at this ⊢
          rw [hcut]
          linarith
  | gauss =>
    refine ⟨idealFn .gauss x, idealEntropy .gauss x, ?_, le_of_eq ?_, ?_⟩
    · show gaussFn x mo = _
      simp only [idealFn, gaussFn]; ring
    · show gaussEntropy x mo = _
      simp only [idealEntropy, gaussEntropy, neg_sq_eq]; ring
    · have := strong_ideal (t := .gauss) trivial x y
      have hcut : cutoffError .gauss = 0 := rfl
      rw [hcut, add_zero]
      exact this
  | gaussianSpline =>
    have hm := h1 rfl
    have hcut : cutoffError .gaussianSpline = 0 := rfl
    rw [hcut, add_zero]
    show ∃ a u, gsFn x mo = mo * a ∧ gsEntropy x mo ≤ mo * u ∧ _
    have hmid : gsEntropy x mo ≤ mo * idealEntropy .gaussianSpline x := by
      have hpos := idealEntropy_nonneg (t := .gaussianSpline) trivial x
      rw [gsEntropy]
      split_ifs with h7 hx
      · positivity
      · refine le_trans (le_of_eq ?_) (le_mul_of_one_le_left hpos hm)
        rw [idealEntropy_spline, if_neg (not_le.2 hx)]
      · refine le_trans (le_of_eq ?_) (le_mul_of_one_le_left hpos hm)
        rw [idealEntropy_spline, if_pos (not_lt.1 hx)]
    rw [gsFn_eq_cut]
    by_cases ha : x < -8
    · refine ⟨0, 0, by rw [if_pos ha, mul_zero], ?_, by linarith⟩
      rw [gsEntropy, if_pos (by rw [abs_of_neg (by linarith)]; linarith), mul_zero]
    · rw [if_neg ha]
      by_cases hb : 8 < x
      · refine ⟨1, 0, by rw [if_pos hb, mul_one], ?_, by linarith⟩
        rw [gsEntropy, if_pos (by rw [abs_of_pos (by linarith)]; linarith), mul_zero]
      · exact ⟨spline x, _, by rw [if_neg hb, ← spline_eq], hmid, strong_ideal (t := .gaussianSpline) trivial x y⟩
  | methfesselPaxton => exact ht.elim
  | cold => exact ht.elim

/-! ## One k-point -/

variable {N B : ℕ}

theorem split_gap {H S : Mat N N} (hH : H.IsHermitian) (hS : S.PosSemidef) {V : Mat N B} {e : Fin B → ℝ}
    (hV : Lowest H S V e) {g : ℝ} (hg : GapAbove H S V e g) (v : Fin N → ℂ) (hv : expectation S v = 1) :
    ∃ r, 0 ≤ r ∧ r + ∑ j, Complex.normSq ((Vᴴ *ᵥ (S *ᵥ v)) j) = 1 ∧
      ∀ j0, (∑ j, Complex.normSq ((Vᴴ *ᵥ (S *ᵥ v)) j) * e j) + r * (e j0 + g) ≤ expectation H v := by
  set W : Mat N N := S * V * (S * V)ᴴ with hW
  have hWv : ∀ u : Fin N → ℂ, star u ⬝ᵥ (W *ᵥ u) = star (Vᴴ *ᵥ (S *ᵥ u)) ⬝ᵥ (Vᴴ *ᵥ (S *ᵥ u)) := fun u => by
    have : W *ᵥ u = S *ᵥ (V *ᵥ (Vᴴ *ᵥ (S *ᵥ u))) := by
      simp only [hW, conjTranspose_mul, hS.isHermitian.eq, Matrix.mulVec_mulVec, Matrix.mul_assoc]
    rw [this, star_mulVec, star_mulVec, conjTranspose_conjTranspose, hS.isHermitian.eq, ← dotProduct_mulVec, ← dotProduct_mulVec]
  have hx : ∀ u, expectation (H + (g : ℂ) • W) u
      = expectation H u + g * ∑ j, Complex.normSq ((Vᴴ *ᵥ (S *ᵥ u)) j) := fun u => by
    have h1 : (star u ⬝ᵥ (W *ᵥ u)).re = ∑ j, Complex.normSq ((Vᴴ *ᵥ (S *ᵥ u)) j) := by
      rw [hWv, ← normSq_sum]
    rw [← h1]
    simp only [expectation, add_mulVec, smul_mulVec, dotProduct_add, dotProduct_smul, Complex.add_re, smul_eq_mul,
      Complex.mul_re, Complex.ofReal_re, Complex.ofReal_im, zero_mul, sub_zero]
  have hV' : Lowest (H + (g : ℂ) • W) S V (fun i => e i + g) := by
    refine ⟨hV.ortho, ?_, fun u hu i => ?_⟩
    · have h2 : W * V = S * V := by
        have := hV.ortho
        simp only [SOrtho] at this
        rw [hW, conjTranspose_mul, hS.isHermitian.eq, Matrix.mul_assoc, Matrix.mul_assoc Vᴴ, this, Matrix.mul_one]
      rw [Matrix.add_mul, hV.eigen, Matrix.smul_mul, h2]
      ext a c
      simp only [Matrix.add_apply, Matrix.smul_apply, mul_diagonal, smul_eq_mul, Complex.ofReal_add]
      ring
    · have := hg u hu i
      rw [hx, hu]
      simpa using this
  have hH' : (H + (g : ℂ) • W).IsHermitian := by
    refine hH.add ?_
    have : W.IsHermitian := isHermitian_mul_conjTranspose_self _
    rw [IsHermitian, conjTranspose_smul, this.eq]
    simp
  obtain ⟨r, h0, h1, h2⟩ := split_energy hH' hS hV' v hv
  refine ⟨r, h0, h1, fun j0 => ?_⟩
  have := h2 j0
  rw [hx] at this
  simp only [mul_add, Finset.sum_add_distrib, ← Finset.sum_mul] at this ⊢
  linarith

/-- numbers only: a substochastic matrix `c` with missing parts `r` of the rows -/
theorem stochastic_bound {e s f φ G : Fin B → ℝ} {E r : Fin B → ℝ} {c : Fin B → Fin B → ℝ} {κ g mo : ℝ} (hg : 0 ≤ g)
    (hκ : 0 ≤ κ) (hf : ∀ i, 0 ≤ f i) (hfm : ∀ i, f i ≤ mo) (hc : ∀ i j, 0 ≤ c i j) (hr0 : ∀ i, 0 ≤ r i)
    (hr1 : ∀ i, r i + ∑ j, c i j = 1) (hb : ∀ j, ∑ i, c i j ≤ 1)
    (hr2 : ∀ i j0, (∑ j, c i j * e j) + r i * (e j0 + g) ≤ E i)
    (h : ∀ i j, s i - e j * f i + κ * (f i - φ j) ^ 2 ≤ G j) {C : ℝ} (hC0 : 0 ≤ C) (hC : 2 ≤ C * κ) (hCg : 3 * mo ≤ C * g) :
    ∑ i, f i ^ 2 + ∑ j, φ j ^ 2 - 2 * ∑ i, ∑ j, c i j * (f i * φ j) ≤ C * (∑ j, G j - ∑ i, (s i - E i * f i)) := by
  set dd : Fin B → ℝ := fun j => 1 - ∑ i, c i j with hdd
  have hd0 : ∀ j, 0 ≤ dd j := fun j => sub_nonneg.2 (hb j)
  have hR : ∑ i, r i = ∑ j, dd j := by
    rw [hdd, Finset.sum_sub_distrib, Finset.sum_comm (f := fun j i => c i j), ← Finset.sum_sub_distrib]
    exact Finset.sum_congr rfl fun i _ => by linarith [hr1 i]
  -- a filling of the missing parts
  obtain ⟨q, hq0, hqr, hqc⟩ : ∃ q : Fin B → Fin B → ℝ, (∀ i j, 0 ≤ q i j) ∧ (∀ i, ∑ j, q i j = r i) ∧
      ∀ j, ∑ i, q i j = dd j := by
    rcases eq_or_ne (∑ i, r i) 0 with h0 | h0
    · have z1 := (Finset.sum_eq_zero_iff_of_nonneg fun i _ => hr0 i).1 h0
      have z2 := (Finset.sum_eq_zero_iff_of_nonneg fun j _ => hd0 j).1 (hR ▸ h0)
      exact ⟨fun _ _ => 0, fun _ _ => le_rfl, fun i => by simp [z1 i], fun j => by simp [z2 j]⟩
    · have hp : 0 < ∑ i, r i := lt_of_le_of_ne (Finset.sum_nonneg fun i _ => hr0 i) h0.symm
      refine ⟨fun i j => r i * dd j / ∑ i, r i, fun i j => div_nonneg (mul_nonneg (hr0 i) (hd0 j)) hp.le, fun i => ?_, fun j => ?_⟩
      · rw [← Finset.sum_div, ← Finset.mul_sum, ← hR, mul_div_assoc, div_self h0, mul_one]
      · rw [← Finset.sum_div, ← Finset.sum_mul, mul_comm, mul_div_assoc, div_self h0, mul_one]
  have row : ∀ i, s i - E i * f i
      ≤ ∑ j, (c i j + q i j) * (G j - κ * (f i - φ j) ^ 2) - g * (r i * f i) := fun i => by
    have h1 : ∑ j, (c i j + q i j) * (s i - e j * f i) ≤ ∑ j, (c i j + q i j) * (G j - κ * (f i - φ j) ^ 2) :=
      Finset.sum_le_sum fun j _ => mul_le_mul_of_nonneg_left (by linarith [h i j]) (add_nonneg (hc i j) (hq0 i j))
    have h2 : ∑ j, (c i j + q i j) * (s i - e j * f i)
        = s i - (∑ j, c i j * e j + ∑ j, q i j * e j) * f i := by
      have a1 : ∑ j, (c i j + q i j) = 1 := by rw [Finset.sum_add_distrib, hqr, add_comm]; exact hr1 i
      have a2 : ∑ j, (c i j + q i j) * (s i - e j * f i)
          = (∑ j, (c i j + q i j)) * s i - (∑ j, c i j * e j + ∑ j, q i j * e j) * f i := by
        rw [← Finset.sum_add_distrib, Finset.sum_mul, Finset.sum_mul, ← Finset.sum_sub_distrib]
        exact Finset.sum_congr rfl fun j _ => by ring
      rw [a2, a1, one_mul]
    have h3 : ∑ j, c i j * e j + ∑ j, q i j * e j + g * r i ≤ E i := by
      rcases Nat.eq_zero_or_pos B with rfl | hB
      · exact i.elim0
      have : Nonempty (Fin B) := ⟨i⟩
      obtain ⟨j0, hj0⟩ := Finite.exists_max e
      have := hr2 i j0
      have h4 : ∑ j, q i j * e j ≤ r i * e j0 := by
        rw [← hqr i, Finset.sum_mul]
        exact Finset.sum_le_sum fun j _ => mul_le_mul_of_nonneg_left (hj0 j) (hq0 i j)
      linarith
    have h5 := mul_le_mul_of_nonneg_right h3 (hf i)
    rw [h2] at h1
    linarith
  have tot : ∑ i, (s i - E i * f i)
      ≤ ∑ i, ∑ j, (c i j + q i j) * (G j - κ * (f i - φ j) ^ 2) - g * ∑ i, r i * f i := by
    rw [Finset.mul_sum, ← Finset.sum_sub_distrib]
    exact Finset.sum_le_sum fun i _ => row i
  have hG : ∑ i, ∑ j, (c i j + q i j) * (G j - κ * (f i - φ j) ^ 2)
      = ∑ j, G j - κ * ∑ i, ∑ j, (c i j + q i j) * (f i - φ j) ^ 2 := by
    have a1 : ∀ j, ∑ i, (c i j + q i j) = 1 := fun j => by rw [Finset.sum_add_distrib, hqc]; simp [hdd]
    have a2 : ∑ i, ∑ j, (c i j + q i j) * (G j - κ * (f i - φ j) ^ 2)
        = ∑ i, ∑ j, (c i j + q i j) * G j - κ * ∑ i, ∑ j, (c i j + q i j) * (f i - φ j) ^ 2 := by
      simp only [Finset.mul_sum, ← Finset.sum_sub_distrib]
      exact Finset.sum_congr rfl fun i _ => Finset.sum_congr rfl fun j _ => by ring
    rw [a2, Finset.sum_comm]
    congr 1
    exact Finset.sum_congr rfl fun j _ => by rw [← Finset.sum_mul, a1, one_mul]
  rw [hG] at tot
  -- the distance
  have e1 : ∑ i, f i ^ 2 = ∑ i, ∑ j, c i j * f i ^ 2 + ∑ i, r i * f i ^ 2 := by
    rw [← Finset.sum_add_distrib]
    refine Finset.sum_congr rfl fun i _ => ?_
    rw [← Finset.sum_mul, ← add_mul, add_comm, hr1, one_mul]
  have e2 : ∑ j, φ j ^ 2 = ∑ i, ∑ j, c i j * φ j ^ 2 + ∑ i, ∑ j, q i j * φ j ^ 2 := by
    rw [Finset.sum_comm (f := fun i j => c i j * φ j ^ 2), Finset.sum_comm (f := fun i j => q i j * φ j ^ 2),
      ← Finset.sum_add_distrib]
    refine Finset.sum_congr rfl fun j _ => ?_
    rw [← Finset.sum_mul, ← Finset.sum_mul, ← add_mul, hqc]
    simp [hdd]
  have e3 : ∑ i, ∑ j, q i j * φ j ^ 2 ≤ 2 * ∑ i, ∑ j, q i j * (f i - φ j) ^ 2 + 2 * ∑ i, r i * f i ^ 2 := by
    have : ∑ i, r i * f i ^ 2 = ∑ i, ∑ j, q i j * f i ^ 2 :=
      Finset.sum_congr rfl fun i _ => by rw [← Finset.sum_mul, hqr]
    rw [this, Finset.mul_sum, Finset.mul_sum, ← Finset.sum_add_distrib]
    refine Finset.sum_le_sum fun i _ => ?_
    rw [Finset.mul_sum, Finset.mul_sum, ← Finset.sum_add_distrib]
    refine Finset.sum_le_sum fun j _ => ?_
    have := mul_nonneg (hq0 i j) (sq_nonneg (2 * f i - φ j))
    nlinarith
  have e4 : ∑ i, r i * f i ^ 2 ≤ mo * ∑ i, r i * f i := by
    rw [Finset.mul_sum]
    refine Finset.sum_le_sum fun i _ => ?_
    have := mul_le_mul_of_nonneg_left (hfm i) (mul_nonneg (hr0 i) (hf i))
    nlinarith
  have e5 : ∑ i, ∑ j, c i j * (f i - φ j) ^ 2
      = ∑ i, ∑ j, c i j * f i ^ 2 + ∑ i, ∑ j, c i j * φ j ^ 2 - 2 * ∑ i, ∑ j, c i j * (f i * φ j) := by
    simp only [Finset.mul_sum, ← Finset.sum_add_distrib, ← Finset.sum_sub_distrib]
    exact Finset.sum_congr rfl fun i _ => Finset.sum_congr rfl fun j _ => by ring
  have e6 : ∑ i, ∑ j, (c i j + q i j) * (f i - φ j) ^ 2
      = ∑ i, ∑ j, c i j * (f i - φ j) ^ 2 + ∑ i, ∑ j, q i j * (f i - φ j) ^ 2 := by
    simp only [add_mul, Finset.sum_add_distrib]
  have p1 : 0 ≤ ∑ i, ∑ j, c i j * (f i - φ j) ^ 2 :=
    Finset.sum_nonneg fun i _ => Finset.sum_nonneg fun j _ => mul_nonneg (hc i j) (sq_nonneg _)
  have p2 : 0 ≤ ∑ i, ∑ j, q i j * (f i - φ j) ^ 2 :=
    Finset.sum_nonneg fun i _ => Finset.sum_nonneg fun j _ => mul_nonneg (hq0 i j) (sq_nonneg _)
  have p3 : 0 ≤ ∑ i, r i * f i := Finset.sum_nonneg fun i _ => mul_nonneg (hr0 i) (hf i)
  rw [e6] at tot
  generalize ∑ i, ∑ j, c i j * (f i - φ j) ^ 2 = A at *
  generalize ∑ i, ∑ j, q i j * (f i - φ j) ^ 2 = Q at *
  generalize ∑ i, r i * f i = R at *
  have t1 := mul_le_mul_of_nonneg_left tot hC0
  have t2 := mul_le_mul_of_nonneg_right hC (add_nonneg p1 p2)
  have t3 := mul_le_mul_of_nonneg_right hCg p3
  have goal : ∑ i, f i ^ 2 + ∑ j, φ j ^ 2 - 2 * ∑ i, ∑ j, c i j * (f i * φ j) ≤ 2 * (A + Q) + 3 * mo * R := by
    rw [e1, e2]; linarith
  refine goal.trans ?_
  have t4 : C * (κ * (A + Q)) = C * κ * (A + Q) := by ring
  have t5 : C * (g * R) = C * g * R := by ring
  linarith

theorem trace_densities {S : Mat N N} (hS : S.IsHermitian) (X V : Mat N B) (f φ : Fin B → ℝ) :
    (trace (densityOf X f * S * (densityOf V φ * S))).re
      = ∑ i, ∑ j, Complex.normSq ((Vᴴ * (S * X)) j i) * (f i * φ j) := by
  set Y := Xᴴ * (S * V) with hY
  have hY' : Vᴴ * (S * X) = Yᴴ := by
    rw [hY, conjTranspose_mul, conjTranspose_mul, conjTranspose_conjTranspose, hS.eq, Matrix.mul_assoc]
  have h1 : trace (densityOf X f * S * (densityOf V φ * S))
      = trace (diagonal (fun i => (f i : ℂ)) * Y * (diagonal (fun i => (φ i : ℂ)) * Yᴴ)) := by
    have : densityOf X f * S * (densityOf V φ * S)
        = X * (diagonal (fun i => (f i : ℂ)) * Y * (diagonal (fun i => (φ i : ℂ)) * (Vᴴ * S))) := by
      simp only [densityOf, hY, Matrix.mul_assoc]
    rw [this, trace_mul_comm, ← hY']
    simp only [Matrix.mul_assoc]
  rw [h1, hY', trace, Complex.re_sum]
  refine Finset.sum_congr rfl fun i _ => ?_
  rw [diag_apply, mul_apply, Complex.re_sum]
  refine Finset.sum_congr rfl fun j _ => ?_
  rw [diagonal_mul, diagonal_mul, conjTranspose_apply, Complex.star_def, Complex.normSq_conj]
  generalize Y i j = z
  simp [Complex.normSq_apply]
  ring

theorem distSq_eq {S : Mat N N} (hS : S.IsHermitian) {X V : Mat N B} (hX : SOrtho S X) (hV : SOrtho S V) (f φ : Fin B → ℝ) :
    distSq S (densityOf X f) (densityOf V φ)
      = ∑ i, f i ^ 2 + ∑ j, φ j ^ 2 - 2 * ∑ i, ∑ j, Complex.normSq ((Vᴴ * (S * X)) j i) * (f i * φ j) := by
  have self : ∀ {X : Mat N B} (_ : SOrtho S X) (f : Fin B → ℝ),
      (trace (densityOf X f * S * (densityOf X f * S))).re = ∑ i, f i ^ 2 := fun {Y} hY f => by
    have h1 : Yᴴ * (S * Y) = 1 := hY
    rw [trace_densities hS, h1]
    refine Finset.sum_congr rfl fun i _ => ?_
    rw [Finset.sum_eq_single i]
    · simp; ring
    · intro j _ hj; simp [hj]
    · simp
  have swap : trace (densityOf V φ * S * (densityOf X f * S)) = trace (densityOf X f * S * (densityOf V φ * S)) :=
    trace_mul_comm _ _
  rw [distSq, Matrix.sub_mul, Matrix.sub_mul, Matrix.mul_sub, Matrix.mul_sub, trace_sub, trace_sub, trace_sub, swap,
    Complex.sub_re, Complex.sub_re, Complex.sub_re, self hX, self hV, trace_densities hS]
  ring

/-- one k-point: the distance of the densities is bounded by the excess -/
theorem ky_fan_density {H S : Mat N N} (hH : H.IsHermitian) (hS : S.PosSemidef) {V X : Mat N B} {e : Fin B → ℝ}
    (hV : Lowest H S V e) {g : ℝ} (hg : 0 ≤ g) (hgap : GapAbove H S V e g) (hX : SOrtho S X) {s f φ G : Fin B → ℝ} {κ mo : ℝ}
    (hκ : 0 ≤ κ) (hf : ∀ i, 0 ≤ f i) (hfm : ∀ i, f i ≤ mo)
    (h : ∀ i j, s i - e j * f i + κ * (f i - φ j) ^ 2 ≤ G j) {C : ℝ} (hC0 : 0 ≤ C) (hC : 2 ≤ C * κ) (hCg : 3 * mo ≤ C * g) :
    distSq S (densityOf X f) (densityOf V φ)
      ≤ C * (∑ j, G j - ∑ i, (s i - expectation H (X *ᵥ Pi.single i 1) * f i)) := by
  have hone : ∀ {X : Mat N B} (_ : SOrtho S X) i, expectation S (X *ᵥ Pi.single i 1) = 1 := fun hX i => by
    rw [expectation, star_mulVec, ← dotProduct_mulVec]
    simp only [Matrix.mulVec_mulVec]
    rw [hX, Matrix.one_mulVec]
    simp [dotProduct, Pi.single_apply, apply_ite star]
  have hsp := fun i => split_gap hH hS hV hgap _ (hone hX i)
  choose r hr0 hr1 hr2 using hsp
  have e1 : ∀ i j, (Vᴴ *ᵥ (S *ᵥ (X *ᵥ Pi.single i 1))) j = (Vᴴ * (S * X)) j i := fun i j => by
    rw [Matrix.mulVec_mulVec, Matrix.mulVec_mulVec, mulVec_single_one, Matrix.mul_assoc]; rfl
  simp only [e1] at hr1 hr2
  have hb : ∀ j, ∑ i, Complex.normSq ((Vᴴ * (S * X)) j i) ≤ 1 := fun j => by
    have := bessel hS hX (V *ᵥ Pi.single j 1)
    rw [hone hV.ortho j] at this
    refine le_trans (le_of_eq (Finset.sum_congr rfl fun i _ => ?_)) this
    have e2 : (Xᴴ *ᵥ (S *ᵥ (V *ᵥ Pi.single j 1))) i = (Xᴴ * (S * V)) i j := by
      rw [Matrix.mulVec_mulVec, Matrix.mulVec_mulVec, mulVec_single_one, Matrix.mul_assoc]; rfl
    have e3 : Xᴴ * (S * V) = (Vᴴ * (S * X))ᴴ := by
      rw [conjTranspose_mul, conjTranspose_mul, conjTranspose_conjTranspose, hS.isHermitian.eq, Matrix.mul_assoc]
    rw [e2, e3, conjTranspose_apply]
    exact (Complex.normSq_conj _).symm
  rw [distSq_eq hS.isHermitian hX hV.ortho]
  exact stochastic_bound hg hκ hf hfm (c := fun i j => Complex.normSq ((Vᴴ * (S * X)) j i))
    (fun i j => Complex.normSq_nonneg _) hr0 hr1 hb hr2 h hC0 hC hCg

/-! ## All k-points -/

section
variable {K : ℕ} {n b : Fin K → ℕ}

theorem densityFactor_nonneg {t : SmearType} (ht : Monotonic t) {T mo g : ℝ} (hT : 0 < T) (hm : 0 < mo) (hg : 0 < g) :
    0 ≤ densityFactor t T mo g := by
  have := stiffness_pos ht
  have := mul_pos kB_pos hT
  rw [densityFactor]; positivity

/-- occupations `f` with entropies `s` that obey the level inequality up to `ε` -/
theorem density_core {t : SmearType} (ht : Monotonic t) {T mo g ε : ℝ} (hT : 0 < T) (hm : 0 < mo) (hg : 0 < g)
    {wk : Fin K → ℝ} (hw : ∀ k, 0 ≤ wk k)
    {H S : (k : Fin K) → Mat (n k) (n k)} (hH : ∀ k, (H k).IsHermitian) (hS : ∀ k, (S k).PosSemidef)
    {V : Orbitals n b} {e : Bands b} (hV : ∀ k, Lowest (H k) (S k) (V k) (e k))
    (hgap : ∀ k, GapAbove (H k) (S k) (V k) (e k) g) (mu : ℝ)
    {X : Orbitals n b} (hX : ∀ k, SOrtho (S k) (X k)) {f s : Bands b} (hf0 : ∀ k i, 0 ≤ f k i) (hfm : ∀ k i, f k i ≤ mo)
    (hlev : ∀ k i y, s k i + y * f k i + stiffness t / mo * (f k i - mo * idealFn t y) ^ 2
      ≤ mo * (idealEntropy t y + y * idealFn t y + ε)) :
    ∑ k, wk k * distSq (S k) (densityOf (X k) (f k)) (densityOf (V k) (exactOcc t T mo e mu k))
      ≤ densityFactor t T mo g * (bandEnergy H wk X f - kB * T * (∑ k, wk k * ∑ i, s k i)
        - exactFreeEnergy t T mo wk e mu - mu * (electrons wk f - exactElectrons t T mo wk e mu)
        + kB * T * mo * ε * ∑ k, wk k * b k) := by
  have hkT : (0 : ℝ) < kB * T := mul_pos kB_pos hT
  have hq := stiffness_pos ht
  have hC0 := densityFactor_nonneg ht hT hm hg
  have key : ∀ k, distSq (S k) (densityOf (X k) (f k)) (densityOf (V k) (exactOcc t T mo e mu k))
      ≤ densityFactor t T mo g * (∑ j, kB * T * (mo * (idealEntropy t ((mu - e k j) / (kB * T))
          + (mu - e k j) / (kB * T) * idealFn t ((mu - e k j) / (kB * T)) + ε))
        - ∑ i, (kB * T * s k i + mu * f k i
          - expectation (H k) (X k *ᵥ Pi.single i 1) * f k i)) := fun k => by
    refine ky_fan_density (hH k) (hS k) (hV k) hg.le (hgap k) (hX k) (κ := kB * T * (stiffness t / mo)) (mo := mo)
      (f := f k) (φ := exactOcc t T mo e mu k)
      (s := fun i => kB * T * s k i + mu * f k i)
      (by positivity) (hf0 k) (hfm k) (fun i j => ?_) hC0 ?_ ?_
    · have h1 := mul_le_mul_of_nonneg_left
        (hlev k i ((mu - e k j) / (kB * T))) hkT.le
      have hy : kB * T * ((mu - e k j) / (kB * T)) = mu - e k j := mul_div_cancel₀ _ hkT.ne'
      refine le_trans (le_of_eq ?_) h1
      simp only [exactOcc]
      generalize f k i = a at *
      generalize s k i = u at *
      generalize idealFn t ((mu - e k j) / (kB * T)) = a0 at *
      generalize stiffness t / mo = q at *
      linear_combination -a * hy
    · have : 2 = 2 / (stiffness t * (kB * T)) * mo * (kB * T * (stiffness t / mo)) := by
        have hkB : (kB : ℝ) ≠ 0 := kB_pos.ne'
        field_simp
      calc (2 : ℝ) = 2 / (stiffness t * (kB * T)) * mo * (kB * T * (stiffness t / mo)) := this
        _ ≤ densityFactor t T mo g * (kB * T * (stiffness t / mo)) := by
          refine mul_le_mul_of_nonneg_right ?_ (by positivity)
          rw [densityFactor, add_mul]
          have : 0 ≤ 3 / g * mo := by positivity
          linarith
    · have h0 : 3 * mo = 3 / g * mo * g := by field_simp
      rw [h0]
      refine mul_le_mul_of_nonneg_right ?_ hg.le
      rw [densityFactor, add_mul]
      have : 0 ≤ 2 / (stiffness t * (kB * T)) * mo := by positivity
      linarith
  have h2 : ∀ k, wk k * distSq (S k) (densityOf (X k) (f k)) (densityOf (V k) (exactOcc t T mo e mu k))
      ≤ densityFactor t T mo g * (wk k * (∑ i, f k i * levels H X k i)
          - kB * T * (wk k * ∑ i, s k i)
          - wk k * ∑ i, mo * (e k i * idealFn t ((mu - e k i) / (kB * T)) - kB * T * idealEntropy t ((mu - e k i) / (kB * T)))
          - mu * (wk k * ∑ i, f k i - wk k * ∑ i, mo * idealFn t ((mu - e k i) / (kB * T)))
          + kB * T * mo * ε * (wk k * b k)) := fun k => by
    refine (mul_le_mul_of_nonneg_left (key k) (hw k)).trans (le_of_eq ?_)
    have h3 : ∑ j, kB * T * (mo * (idealEntropy t ((mu - e k j) / (kB * T))
        + (mu - e k j) / (kB * T) * idealFn t ((mu - e k j) / (kB * T)) + ε))
        = mu * (∑ i, mo * idealFn t ((mu - e k i) / (kB * T)))
          - ∑ i, mo * (e k i * idealFn t ((mu - e k i) / (kB * T)) - kB * T * idealEntropy t ((mu - e k i) / (kB * T)))
          + kB * T * mo * ε * b k := by
      have hb : kB * T * mo * ε * b k = ∑ _j : Fin (b k), kB * T * mo * ε := by
        rw [Finset.sum_const, Finset.card_univ, Fintype.card_fin, nsmul_eq_mul]; ring
      rw [hb, Finset.mul_sum, ← Finset.sum_sub_distrib, ← Finset.sum_add_distrib]
      refine Finset.sum_congr rfl fun j _ => ?_
      have hy : kB * T * ((mu - e k j) / (kB * T)) = mu - e k j := mul_div_cancel₀ _ hkT.ne'
      generalize idealFn t ((mu - e k j) / (kB * T)) = a
      generalize idealEntropy t ((mu - e k j) / (kB * T)) = u
      linear_combination mo * a * hy
    have h4 : ∑ i, (kB * T * s k i + mu * f k i
          - expectation (H k) (X k *ᵥ Pi.single i 1) * f k i)
        = kB * T * (∑ i, s k i) + mu * (∑ i, f k i)
          - ∑ i, f k i * levels H X k i := by
      rw [Finset.mul_sum, Finset.mul_sum, ← Finset.sum_add_distrib, ← Finset.sum_sub_distrib]
      refine Finset.sum_congr rfl fun i _ => ?_
      rw [levels_eq]
      ring
    rw [h3, h4]
    ring
  refine (Finset.sum_le_sum fun k _ => h2 k).trans (le_of_eq ?_)
  rw [← Finset.mul_sum]
  congr 1
  simp only [bandEnergy, exactFreeEnergy, electrons, exactElectrons, Finset.sum_sub_distrib,
    Finset.sum_add_distrib, ← Finset.mul_sum]

end

end Nlcg
