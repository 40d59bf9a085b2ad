import Verif.Spec.Float
import Verif.Proofs.Occupation
import Verif.Proofs.ChemPot
import Verif.Proofs.Erf
import Mathlib.Analysis.Complex.ExponentialBounds

/-! Smearing functions in floating point. -/

namespace Nlcg
open Arith

/-- Over the reals the functions are those of `Model/Smearing.lean`. -/
theorem smearFl_real (t : SmearType) : smearFl (α := ℝ) t = smearFns t := by
  cases t <;> simp only [smearFl, smearFns, SmearFns.mk.injEq] <;> refine ⟨?_, ?_, ?_, ?_⟩ <;> funext x mo
  all_goals
    have h5 : (0.5 : ℝ) = 2⁻¹ := by norm_num
    have h4 : (0.25 : ℝ) = 4⁻¹ := by norm_num
    have h6 : (-1 / 2 : ℝ) = -2⁻¹ := by norm_num
    simp [h5, h4, h6, fdFnF, fdFn, fdDeltaF, fdDelta, fdDxdeltaF, fdDxdelta, fdEntropyF, fdEntropy, gsFnF, gsFn, gsDeltaF, gsDelta,
      gsDxdeltaF, gsDxdelta, gsEntropyF, gsEntropy, coldFnF, coldFn, coldDeltaF, coldDelta, coldDxdeltaF, coldDxdelta,
      coldEntropyF, coldEntropy, mpFnF, mpFn, mpDeltaF, mpDelta, mpDxdeltaF, mpDxdelta, mpEntropyF, mpEntropy, gaussFnF,
      gaussFn, gaussDeltaF, gaussDelta, gaussDxdeltaF, gaussDxdelta, gaussEntropyF, gaussEntropy, Arith.lt, Arith.le,
      Arith.lit, Arith.sub, Arith.mul, Arith.div, Arith.add, Arith.neg, Arith.abs, Libm.exp, Libm.log, Libm.sqrt,
      Libm.erf, Libm.erfc, Libm.cube, Libm.pi]
  all_goals skip

/-! ## Bounds on rounded results -/

section
open Spec
variable {r : Rounding} (hr : RoundingOk r)
include hr

theorem within_norm {x B C : ℝ} (h : |x| ≤ B) (hC : B * 1.001 + 0.001 ≤ C) (hB : B ≤ 10 ^ 199) :
    Within (F64.norm x : F64 r) C := by
  have h1 : |x| < r.huge := lt_of_lt_of_le (lt_of_le_of_lt (h.trans hB) (by norm_num)) hr.huge
  refine ⟨r.rnd x, if_pos h1, ?_⟩
  have h2 := hr.rnd x
  have h3 := abs_sub_abs_le_abs_sub (r.rnd x) x
  have h0 := abs_nonneg x
  norm_num at h2 hC ⊢
  linarith

theorem norm_ge {x m B : ℝ} (hm : 1 / 1000 ≤ m) (h : m ≤ x) (hx : x ≤ B) (hB : B ≤ 10 ^ 199) :
    ∃ y, (F64.norm x : F64 r) = .num y ∧ m / 2 ≤ y := by
  have h0 : |x| = x := abs_of_nonneg (by linarith)
  have h1 : |x| < r.huge := lt_of_lt_of_le (by rw [h0]; exact lt_of_le_of_lt (hx.trans hB) (by norm_num)) hr.huge
  refine ⟨r.rnd x, if_pos h1, ?_⟩
  have h2 := hr.rnd x
  rw [h0, abs_le] at h2
  norm_num at h2 hm
  linarith

theorem within_lit (q : ℚ) {C : ℝ} (hC : |(q : ℝ)| * 1.001 + 0.001 ≤ C) (hB : |(q : ℝ)| ≤ 10 ^ 199) :
    Within (lit q : F64 r) C := within_norm hr (le_refl _) hC hB

theorem within_add {a b : F64 r} {A B C : ℝ} (ha : Within a A) (hb : Within b B) (hC : (A + B) * 1.001 + 0.001 ≤ C)
    (hB : A + B ≤ 10 ^ 199) : Within (a +ᶠ b) C := by
  obtain ⟨x, rfl, hx⟩ := ha
  obtain ⟨y, rfl, hy⟩ := hb
  exact within_norm hr ((abs_add_le x y).trans (by linarith)) hC hB

omit hr in
theorem within_neg {a : F64 r} {A : ℝ} (ha : Within a A) : Within (Arith.neg a) A := by
  obtain ⟨x, rfl, hx⟩ := ha
  exact ⟨-x, rfl, by rwa [abs_neg]⟩

theorem within_sub {a b : F64 r} {A B C : ℝ} (ha : Within a A) (hb : Within b B) (hC : (A + B) * 1.001 + 0.001 ≤ C)
    (hB : A + B ≤ 10 ^ 199) : Within (a -ᶠ b) C := within_add hr ha (within_neg hb) hC hB

theorem within_mul {a b : F64 r} {A B C : ℝ} (ha : Within a A) (hb : Within b B) (hC : A * B * 1.001 + 0.001 ≤ C)
    (hB : A * B ≤ 10 ^ 199) : Within (a *ᶠ b) C := by
  obtain ⟨x, rfl, hx⟩ := ha
  obtain ⟨y, rfl, hy⟩ := hb
  refine within_norm hr ?_ hC hB
  rw [abs_mul]
  exact mul_le_mul hx hy (abs_nonneg y) ((abs_nonneg x).trans hx)

/-- division by a number that is not too small -/
theorem within_div {a b : F64 r} {A C m : ℝ} (ha : Within a A) (hb : ∃ y, b = .num y ∧ m ≤ y) (hm : 0 < m)
    (hC : A / m * 1.001 + 0.001 ≤ C) (hB : A / m ≤ 10 ^ 199) : Within (a /ᶠ b) C := by
  obtain ⟨x, rfl, hx⟩ := ha
  obtain ⟨y, rfl, hy⟩ := hb
  have hy0 : 0 < y := lt_of_lt_of_le hm hy
  have e : ((.num x : F64 r) /ᶠ .num y) = F64.norm (x / y) := if_neg hy0.ne'
  rw [e]
  refine within_norm hr ?_ hC hB
  rw [abs_div, abs_of_pos hy0]
  exact div_le_div₀ ((abs_nonneg x).trans hx) hx hm hy

omit hr in
theorem exp_le_pow (N : ℕ) {x : ℝ} (h : x ≤ N) : Real.exp x ≤ 3 ^ N := by
  calc Real.exp x ≤ Real.exp N := Real.exp_le_exp.2 h
    _ = Real.exp 1 ^ N := by rw [← Real.exp_nat_mul, mul_one]
    _ ≤ 3 ^ N := pow_le_pow_left₀ (Real.exp_pos 1).le (by linarith [Real.exp_one_lt_d9]) N

theorem within_exp {a : F64 r} (N : ℕ) (ha : Within a N) {C : ℝ} (hC : (3 : ℝ) ^ N * 1.001 + 0.001 ≤ C)
    (hB : (3 : ℝ) ^ N ≤ 10 ^ 199) : Within (Libm.exp a) C := by
  obtain ⟨x, rfl, hx⟩ := ha
  have h1 := exp_le_pow N ((le_abs_self x).trans hx)
  have h2 : Real.exp x < r.huge := lt_of_lt_of_le (lt_of_le_of_lt (h1.trans hB) (by norm_num)) hr.huge
  refine ⟨r.exp x, if_pos h2, ?_⟩
  have h3 := hr.exp x
  have h4 := abs_sub_abs_le_abs_sub (r.exp x) (Real.exp x)
  rw [Real.abs_exp] at h4
  have h5 := Real.exp_pos x
  norm_num at h3 hC ⊢
  linarith

/-- `1 + exp x` -/
theorem one_add_exp {a : F64 r} (N : ℕ) (ha : Within a N) (hB : (3 : ℝ) ^ N ≤ 10 ^ 190) :
    ∃ y, (lit 1 +ᶠ Libm.exp a) = (.num y : F64 r) ∧ 1 / 4 ≤ y ∧ y ≤ 3 ^ N * 2 + 2 := by
  obtain ⟨x, rfl, hx⟩ := ha
  have h1 := exp_le_pow N ((le_abs_self x).trans hx)
  have h2 : Real.exp x < r.huge := lt_of_lt_of_le (lt_of_le_of_lt (h1.trans hB) (by norm_num)) hr.huge
  have e1 : Libm.exp (.num x : F64 r) = .num (r.exp x) := if_pos h2
  have h3 := hr.exp x
  have h5 := Real.exp_pos x
  have h1' : |((1 : ℚ) : ℝ)| < r.huge := lt_of_lt_of_le (by norm_num) hr.huge
  have e2 : (lit 1 : F64 r) = .num (r.rnd ((1 : ℚ) : ℝ)) := if_pos h1'
  have h4 := hr.rnd ((1 : ℚ) : ℝ)
  rw [e1, e2]
  set p := r.exp x
  set q := r.rnd ((1 : ℚ) : ℝ)
  rw [abs_le] at h3 h4
  norm_num at h3 h4
  have hlo : 1 / 2 ≤ q + p := by linarith
  have hhi : q + p ≤ 3 ^ N * 1.5 + 1.5 := by norm_num; linarith
  have habs : |q + p| = q + p := abs_of_nonneg (by linarith)
  have hlt : |q + p| < r.huge := by
    rw [habs]
    refine lt_of_lt_of_le (lt_of_le_of_lt hhi ?_) hr.huge
    have : (3 : ℝ) ^ N * 1.5 ≤ 10 ^ 190 * 1.5 := by linarith
    refine lt_of_le_of_lt (add_le_add_left this _) (by norm_num)
  have h6 := hr.rnd (q + p)
  refine ⟨r.rnd (q + p), if_pos hlt, ?_, ?_⟩
  · rw [habs, abs_le] at h6
    norm_num at h6
    linarith
  · rw [habs, abs_le] at h6
    norm_num at h6 hhi
    have : (0 : ℝ) < 3 ^ N := by positivity
    linarith

theorem within_sqrt2 : Within (Libm.sqrt (lit 2 : F64 r)) 2 ∧ ∃ y, Libm.sqrt (lit 2 : F64 r) = .num y ∧ 1 ≤ y := by
  have h1' : |((2 : ℚ) : ℝ)| < r.huge := lt_of_lt_of_le (by norm_num) hr.huge
  have e2 : (lit 2 : F64 r) = .num (r.rnd ((2 : ℚ) : ℝ)) := if_pos h1'
  have h4 := hr.rnd ((2 : ℚ) : ℝ)
  rw [e2]
  set q := r.rnd ((2 : ℚ) : ℝ)
  rw [abs_le] at h4
  norm_num at h4
  have hq : 0 ≤ q := by linarith
  have e : Libm.sqrt (.num q : F64 r) = .num (r.sqrt q) := if_pos hq
  have h5 := hr.sqrt q hq
  have lo : 1.3 ≤ √q := Real.le_sqrt_of_sq_le (by norm_num; linarith)
  have hi : √q ≤ 1.5 := Real.sqrt_le_iff.2 ⟨by norm_num, by norm_num; linarith⟩
  rw [abs_le] at h5
  norm_num at h5 lo hi
  refine ⟨⟨_, e, ?_⟩, _, e, by linarith⟩
  rw [abs_le]
  exact ⟨by linarith, by linarith⟩

theorem within_sqrtpi : Within (Libm.sqrt (Libm.pi : F64 r)) 3 ∧ ∃ y, Libm.sqrt (Libm.pi : F64 r) = .num y ∧ 1 ≤ y := by
  have hq : 0 ≤ r.pi := by linarith [hr.pi.1]
  have e : Libm.sqrt (Libm.pi : F64 r) = .num (r.sqrt r.pi) := if_pos hq
  have h5 := hr.sqrt r.pi hq
  have lo : 1.3 ≤ √r.pi := Real.le_sqrt_of_sq_le (by norm_num; linarith [hr.pi.1])
  have hi : √r.pi ≤ 2 := Real.sqrt_le_iff.2 ⟨by norm_num, by norm_num; linarith [hr.pi.2]⟩
  rw [abs_le] at h5
  norm_num at h5 lo hi
  refine ⟨⟨_, e, ?_⟩, _, e, by linarith⟩
  rw [abs_le]
  exact ⟨by linarith, by linarith⟩

omit hr in
theorem Spec.Within.mono {v : F64 r} {B C : ℝ} (h : Within v B) (hBC : B ≤ C) : Within v C := by
  obtain ⟨y, rfl, hy⟩ := h
  exact ⟨y, rfl, hy.trans hBC⟩

theorem within_erf {v : F64 r} (hv : IsNumber v) : Within (Libm.erf v) 1 := by
  cases v with
  | num x => exact ⟨_, rfl, hr.erf x⟩
  | inf s => cases s <;> exact ⟨_, rfl, by norm_num⟩
  | nan => exact absurd rfl hv

theorem within_erfc {v : F64 r} (hv : IsNumber v) : Within (Libm.erfc v) 2 := by
  cases v with
  | num x =>
    have := hr.erfc x
    exact ⟨_, rfl, abs_le.2 ⟨by linarith, this.2⟩⟩
  | inf s => cases s <;> exact ⟨_, rfl, by norm_num⟩
  | nan => exact absurd rfl hv

/-- literals as bounds: what is not cut off is near -/
theorem lit_val (q : ℚ) (hB : |(q : ℝ)| ≤ 10 ^ 199) :
    ∃ y, (lit q : F64 r) = .num y ∧ |y - q| ≤ |(q : ℝ)| / 2 ^ 20 + 1 / 2 ^ 20 :=
  ⟨r.rnd q, if_pos (lt_of_lt_of_le (lt_of_le_of_lt hB (by norm_num)) hr.huge), hr.rnd q⟩

theorem near {x : F64 r} (hx : IsNumber x) {lo hi : ℚ} {B : ℝ} (h1 : (x <ᶠ lit lo) = false) (h2 : (lit hi <ᶠ x) = false)
    (hlo : |(lo : ℝ)| * 1.001 + 0.001 ≤ B) (hhi : |(hi : ℝ)| * 1.001 + 0.001 ≤ B) (hB : B ≤ 10 ^ 199) : Within x B := by
  have h0 := abs_nonneg (lo : ℝ)
  have h0' := abs_nonneg (hi : ℝ)
  norm_num at hlo hhi
  obtain ⟨a, ea, ha⟩ := within_lit hr lo (C := B) (by norm_num; linarith) (by linarith)
  obtain ⟨b, eb, hb⟩ := within_lit hr hi (C := B) (by norm_num; linarith) (by linarith)
  rw [ea] at h1
  rw [eb] at h2
  cases x with
  | num y =>
    refine ⟨y, rfl, ?_⟩
    have g1 : ¬ y < a := by simpa [Arith.lt, F64.lt] using h1
    have g2 : ¬ b < y := by simpa [Arith.lt, F64.lt] using h2
    rw [abs_le] at ha hb ⊢
    exact ⟨by linarith, by linarith⟩
  | inf s => cases s <;> simp [Arith.lt, F64.lt] at h1 h2
  | nan => exact absurd rfl hx

theorem near_abs {x : F64 r} (hx : IsNumber x) {hi : ℚ} {B : ℝ} (h2 : (lit hi <ᶠ Arith.abs x) = false)
    (hhi : |(hi : ℝ)| * 1.001 + 0.001 ≤ B) (hB : B ≤ 10 ^ 199) : Within x B := by
  have h0' := abs_nonneg (hi : ℝ)
  norm_num at hhi
  obtain ⟨b, eb, hb⟩ := within_lit hr hi (C := B) (by norm_num; linarith) (by linarith)
  rw [eb] at h2
  cases x with
  | num y =>
    refine ⟨y, rfl, ?_⟩
    have g2 : ¬ b < |y| := by simpa [Arith.lt, F64.lt, Arith.abs, F64.abs] using h2
    rw [abs_le] at hb
    linarith
  | inf s => simp [Arith.lt, F64.lt, Arith.abs, F64.abs] at h2
  | nan => exact absurd rfl hx

theorem within_zero {C : ℝ} (hC : 1 ≤ C) : Within (lit 0 : F64 r) C :=
  (within_lit hr 0 (C := 1) (by norm_num) (by norm_num)).mono hC

omit hr in
theorem Spec.Within.number {v : F64 r} {B : ℝ} (h : Within v B) : IsNumber v := by
  obtain ⟨y, rfl, -⟩ := h
  simp [IsNumber]

/-! ## Fermi-Dirac -/

theorem fdFnF_within {x mo : F64 r} (hx : IsNumber x) (hmo : Within mo 1000) : Within (fdFnF x mo) (10 ^ 150) := by
  unfold fdFnF
  split_ifs with h1 h2
  · exact within_zero hr (by norm_num)
  · exact hmo.mono (by norm_num)
  · have hn : Within x (41 : ℕ) := near hr hx (by simpa using h1) (by simpa using h2) (by norm_num) (by norm_num) (by norm_num)
    obtain ⟨y, e, hy, -⟩ := one_add_exp hr 41 hn (by norm_num)
    have hd : Within (mo /ᶠ (lit 1 +ᶠ Libm.exp x)) 5000 :=
      within_div hr hmo ⟨y, e, hy⟩ (by norm_num) (by norm_num) (by norm_num)
    exact within_sub hr hmo hd (by norm_num) (by norm_num)

/-- `exp` of a rounded number -/
theorem exp_half {t : ℝ} (ht : |t| ≤ 20) :
    ∃ v, Libm.exp (F64.norm t : F64 r) = .num v ∧ -0.001 ≤ v ∧ v ≤ 3 ^ 21 * 2 ∧ (0 ≤ t → 0.9 ≤ v) := by
  have h1 : |t| < r.huge := lt_of_lt_of_le (lt_of_le_of_lt ht (by norm_num)) hr.huge
  have e1 : (F64.norm t : F64 r) = .num (r.rnd t) := if_pos h1
  have h2 := hr.rnd t
  rw [e1]
  set s := r.rnd t
  have h3 : s ≤ (21 : ℕ) := by
    have := abs_sub_abs_le_abs_sub s t
    have := le_abs_self s
    norm_num at h2 ⊢
    linarith
  have h4 := exp_le_pow 21 h3
  have h5 : Real.exp s < r.huge := lt_of_lt_of_le (lt_of_le_of_lt h4 (by norm_num)) hr.huge
  have h6 := hr.exp s
  have h7 := Real.exp_pos s
  refine ⟨r.exp s, if_pos h5, ?_, ?_, fun h0 => ?_⟩
  · rw [abs_le] at h6; norm_num at h6 ⊢; linarith
  · rw [abs_le] at h6; norm_num at h6 h4 ⊢; linarith
  · rw [abs_of_nonneg h0, abs_le] at h2
    have h8 := Real.add_one_le_exp s
    rw [abs_le] at h6; norm_num at h2 h6 ⊢; linarith

theorem fdDeltaF_within {x mo : F64 r} (hx : IsNumber x) (hmo : Within mo 1000) : Within (fdDeltaF x mo) (10 ^ 150) := by
  unfold fdDeltaF
  split_ifs with h1
  · exact within_zero hr (by norm_num)
  · obtain ⟨y, rfl, hy⟩ : Within x 36 := near_abs hr hx (by simpa using h1) (by norm_num) (by norm_num)
    obtain ⟨l, el, hl⟩ := lit_val hr 2 (by norm_num)
    rw [abs_le] at hl
    norm_num at hl
    have hl0 : 0 < l := by linarith
    rw [el]
    have e1 : (Arith.neg (.num y : F64 r) /ᶠ .num l) = F64.norm (-(y / l)) := by
      show F64.div (.num (-y)) (.num l) = _
      rw [F64.div, if_neg hl0.ne', neg_div]
    have e2 : ((.num y : F64 r) /ᶠ .num l) = F64.norm (y / l) := if_neg hl0.ne'
    have hq : |y / l| ≤ 20 := by
      rw [abs_div, abs_of_pos hl0, div_le_iff₀ hl0]
      linarith
    obtain ⟨u, eu, u1, u2, u3⟩ := exp_half hr (t := -(y / l)) (by rwa [abs_neg])
    obtain ⟨v, ev, v1, v2, v3⟩ := exp_half hr hq
    rw [e1, e2, eu, ev]
    have hsum : (0.8 : ℝ) ≤ u + v := by
      rcases le_total 0 (y / l) with h | h
      · have := v3 h; norm_num at *; linarith
      · have := u3 (by linarith); norm_num at *; linarith
    obtain ⟨z, ez, hz⟩ := norm_ge hr (by norm_num) hsum (B := 3 ^ 21 * 4) (by linarith) (by norm_num)
    have hw : Within ((.num u : F64 r) +ᶠ .num v) (10 ^ 20) :=
      within_norm hr (B := 10 ^ 19) (by rw [abs_le]; norm_num at *; constructor <;> linarith) (by norm_num) (by norm_num)
    have ez' : ((.num u : F64 r) +ᶠ .num v) = .num z := ez
    rw [ez'] at hw ⊢
    obtain ⟨z', e', hz'⟩ := hw
    cases e'
    simp only
    refine within_div hr hmo (m := 0.08) ?_ (by norm_num) (by norm_num) (by norm_num)
    have hz0 : 0.4 ≤ z := by norm_num at hz ⊢; linarith
    have hsq : (0.16 : ℝ) ≤ z * z := by norm_num at hz0 ⊢; nlinarith
    have hsq' : z * z ≤ 10 ^ 20 * 10 ^ 20 := by
      rw [abs_le] at hz'
      exact mul_le_mul hz'.2 hz'.2 (by norm_num at hz0; linarith) (by norm_num)
    obtain ⟨q, eq, hq'⟩ := norm_ge hr (by norm_num) hsq hsq' (by norm_num)
    exact ⟨q, eq, by norm_num at hq' ⊢; linarith⟩

theorem fdDxdeltaF_within {x mo : F64 r} (hx : IsNumber x) (hmo : Within mo 1000) : Within (fdDxdeltaF x mo) (10 ^ 150) := by
  unfold fdDxdeltaF
  split_ifs with h1
  · exact within_zero hr (by norm_num)
  · have hn : Within x (41 : ℕ) := near_abs hr hx (by simpa using h1) (by norm_num) (by norm_num)
    obtain ⟨y, e, hy, hy'⟩ := one_add_exp hr 41 hn (by norm_num)
    have he : Within (Libm.exp x) (10 ^ 20) := within_exp hr 41 hn (by norm_num) (by norm_num)
    have h1' : Within (Libm.exp x -ᶠ lit 1) (10 ^ 21) :=
      within_sub hr he (within_lit hr 1 (C := 2) (by norm_num) (by norm_num)) (by norm_num) (by norm_num)
    have h2 : Within (Libm.exp x *ᶠ (Libm.exp x -ᶠ lit 1)) (10 ^ 42) :=
      within_mul hr he h1' (by norm_num) (by norm_num)
    have h3 := within_mul hr (within_neg hmo) h2 (C := 10 ^ 46) (by norm_num) (by norm_num)
    refine within_div hr h3 (m := 1 / 128) ?_ (by norm_num) (by norm_num) (by norm_num)
    rw [e]
    have h4 : (1 / 64 : ℝ) ≤ y ^ 3 := by
      have := pow_le_pow_left₀ (by norm_num : (0 : ℝ) ≤ 1 / 4) hy 3
      norm_num at this ⊢
      exact this
    have h5 : y ^ 3 ≤ (3 ^ 41 * 2 + 2) ^ 3 := pow_le_pow_left₀ (by linarith) hy' 3
    obtain ⟨z, ez, hz⟩ := norm_ge hr (by norm_num) h4 h5 (by norm_num)
    exact ⟨z, ez, by linarith⟩

theorem fdEntropyF_within {x mo : F64 r} (hx : IsNumber x) (hmo : Within mo 1000) : Within (fdEntropyF x mo) (10 ^ 150) := by
  unfold fdEntropyF
  split_ifs with h1
  · exact within_zero hr (by norm_num)
  · have hn : Within x (41 : ℕ) := near_abs hr hx (by simpa using h1) (by norm_num) (by norm_num)
    obtain ⟨y, e, hy, hy'⟩ := one_add_exp hr 41 hn (by norm_num)
    have he : Within (Libm.exp x) (10 ^ 20) := within_exp hr 41 hn (by norm_num) (by norm_num)
    have h1' : Within (Libm.exp x *ᶠ x) (10 ^ 22) := within_mul hr he hn (by norm_num) (by norm_num)
    have h2 : Within (Libm.exp x *ᶠ x /ᶠ (lit 1 +ᶠ Libm.exp x)) (10 ^ 23) :=
      within_div hr h1' ⟨y, e, hy⟩ (by norm_num) (by norm_num) (by norm_num)
    have hl : Within (Libm.log (lit 1 +ᶠ Libm.exp x)) (10 ^ 23) := by
      rw [e]
      have hy0 : 0 < y := by linarith
      refine ⟨r.log y, if_pos hy0, ?_⟩
      have g1 := hr.log y hy0
      have g2 : Real.log y ≤ y := (Real.log_le_sub_one_of_pos hy0).trans (by linarith)
      have g3 : -4 ≤ Real.log y := by
        have := Real.one_sub_inv_le_log_of_pos hy0
        have h4 : y⁻¹ ≤ (1 / 4 : ℝ)⁻¹ := inv_anti₀ (by norm_num) hy
        norm_num at h4
        linarith
      have g4 : |Real.log y| ≤ 10 ^ 22 := by
        rw [abs_le]
        norm_num at hy' ⊢
        exact ⟨by linarith, by linarith⟩
      have g5 := abs_sub_abs_le_abs_sub (r.log y) (Real.log y)
      norm_num at g1 g4 ⊢
      linarith
    exact within_mul hr hmo (within_sub hr hl h2 (C := 10 ^ 24) (by norm_num) (by norm_num)) (by norm_num) (by norm_num)

/-! ## Gaussian spline -/

theorem gsArgs {x : F64 r} (hx : Within x 9) :
    Within (Libm.sqrt (lit 2) -ᶠ x) 12 ∧ Within (Libm.sqrt (lit 2) +ᶠ x) 12 := by
  have h2 := (within_sqrt2 hr).1
  exact ⟨within_sub hr h2 hx (by norm_num) (by norm_num), within_add hr h2 hx (by norm_num) (by norm_num)⟩

theorem gsFnF_within {x mo : F64 r} (hx : IsNumber x) (hmo : Within mo 1000) : Within (gsFnF x mo) (10 ^ 150) := by
  unfold gsFnF
  split_ifs with h1 h2 h3
  · exact hmo.mono (by norm_num)
  · exact within_zero hr (by norm_num)
  · have hn : Within x 9 := near hr hx (by simpa using h2) (by simpa using h1) (by norm_num) (by norm_num) (by norm_num)
    obtain ⟨ha, hb⟩ := gsArgs hr hn
    have he : Within (Libm.exp (x *ᶠ (Libm.sqrt (lit 2) -ᶠ x))) (10 ^ 60) :=
      within_exp hr 120 (within_mul hr hn ha (by norm_num) (by norm_num)) (by norm_num) (by norm_num)
    obtain ⟨l, el, hl⟩ := lit_val hr 2 (by norm_num)
    rw [abs_le] at hl
    norm_num at hl
    have hm : Within (mo /ᶠ lit 2) 2000 :=
      within_div hr hmo (m := 1) ⟨l, el, by linarith⟩ (by norm_num) (by norm_num) (by norm_num)
    exact within_mul hr hm he (by norm_num) (by norm_num)
  · have hn : Within x 9 := near hr hx (by simpa using h2) (by simpa using h1) (by norm_num) (by norm_num) (by norm_num)
    obtain ⟨ha, hb⟩ := gsArgs hr hn
    have he : Within (Libm.exp (Arith.neg x *ᶠ (Libm.sqrt (lit 2) +ᶠ x))) (10 ^ 60) :=
      within_exp hr 120 (within_mul hr (within_neg hn) hb (by norm_num) (by norm_num)) (by norm_num) (by norm_num)
    have h4 := within_mul hr (within_lit hr (1 / 2) (C := 1) (by norm_num) (by norm_num)) he (C := 10 ^ 61)
      (by norm_num) (by norm_num)
    have h5 := within_sub hr (within_lit hr 1 (C := 2) (by norm_num) (by norm_num)) h4 (C := 10 ^ 62)
      (by norm_num) (by norm_num)
    exact within_mul hr hmo h5 (by norm_num) (by norm_num)

theorem gsDeltaF_within {x mo : F64 r} (hx : IsNumber x) (hmo : Within mo 1000) : Within (gsDeltaF x mo) (10 ^ 150) := by
  unfold gsDeltaF
  have hm := within_mul hr hmo (within_lit hr (1 / 2) (C := 1) (by norm_num) (by norm_num)) (C := 2000)
    (by norm_num) (by norm_num)
  split_ifs with h1 h3
  · exact within_zero hr (by norm_num)
  all_goals
    have hn : Within x 9 := near_abs hr hx (by simpa using h1) (by norm_num) (by norm_num)
    obtain ⟨ha, hb⟩ := gsArgs hr hn
    have h2x := within_mul hr (within_lit hr 2 (C := 3) (by norm_num) (by norm_num)) hn (C := 30) (by norm_num) (by norm_num)
    have h2 := (within_sqrt2 hr).1
  · have he : Within (Libm.exp ((Libm.sqrt (lit 2) -ᶠ x) *ᶠ x)) (10 ^ 60) :=
      within_exp hr 120 (within_mul hr ha hn (by norm_num) (by norm_num)) (by norm_num) (by norm_num)
    exact within_mul hr (within_mul hr hm he (C := 10 ^ 65) (by norm_num) (by norm_num))
      (within_sub hr h2 h2x (C := 40) (by norm_num) (by norm_num)) (by norm_num) (by norm_num)
  · have he : Within (Libm.exp (Arith.neg x *ᶠ (Libm.sqrt (lit 2) +ᶠ x))) (10 ^ 60) :=
      within_exp hr 120 (within_mul hr (within_neg hn) hb (by norm_num) (by norm_num)) (by norm_num) (by norm_num)
    exact within_mul hr (within_mul hr hm he (C := 10 ^ 65) (by norm_num) (by norm_num))
      (within_add hr h2 h2x (C := 40) (by norm_num) (by norm_num)) (by norm_num) (by norm_num)

theorem gsDxdeltaF_within {x mo : F64 r} (hx : IsNumber x) (hmo : Within mo 1000) :
    Within (gsDxdeltaF x mo) (10 ^ 150) := by
  unfold gsDxdeltaF
  have hm := within_mul hr (within_lit hr (-2) (C := 3) (by norm_num) (by norm_num)) hmo (C := 4000)
    (by norm_num) (by norm_num)
  simp only
  split_ifs with h1 h3
  · exact within_zero hr (by norm_num)
  all_goals
    simp only [Bool.or_eq_true, not_or, Bool.not_eq_true] at h1
    have hn : Within x 9 := near hr hx h1.2 h1.1 (by norm_num) (by norm_num) (by norm_num)
    obtain ⟨ha, hb⟩ := gsArgs hr hn
  · have he : Within (Libm.exp ((Libm.sqrt (lit 2) -ᶠ x) *ᶠ x)) (10 ^ 60) :=
      within_exp hr 120 (within_mul hr ha hn (by norm_num) (by norm_num)) (by norm_num) (by norm_num)
    exact within_mul hr (within_mul hr hm he (C := 10 ^ 65) (by norm_num) (by norm_num)) ha (by norm_num) (by norm_num)
  · have he : Within (Libm.exp (Arith.neg x *ᶠ (Libm.sqrt (lit 2) +ᶠ x))) (10 ^ 60) :=
      within_exp hr 120 (within_mul hr (within_neg hn) hb (by norm_num) (by norm_num)) (by norm_num) (by norm_num)
    exact within_mul hr (within_mul hr (within_mul hr hm he (C := 10 ^ 65) (by norm_num) (by norm_num)) hn (C := 10 ^ 67)
      (by norm_num) (by norm_num)) hb (by norm_num) (by norm_num)

theorem inv_sqrt2 : Within (lit 1 /ᶠ Libm.sqrt (lit 2) : F64 r) 2 :=
  within_div hr (within_lit hr 1 (C := 1.5) (by norm_num) (by norm_num)) (within_sqrt2 hr).2 (by norm_num)
    (by norm_num) (by norm_num)

theorem gsEntropyF_within {x mo : F64 r} (hx : IsNumber x) : Within (gsEntropyF x mo) (10 ^ 150) := by
  unfold gsEntropyF
  have hs : Within (Libm.exp (lit (1 / 2) : F64 r) *ᶠ Libm.sqrt (Libm.pi : F64 r)) 20 :=
    within_mul hr (within_exp hr 1 (within_lit hr (1 / 2) (by norm_num) (by norm_num)) (C := 4) (by norm_num)
      (by norm_num)) (within_sqrtpi hr).1 (by norm_num) (by norm_num)
  split_ifs with h1 h3
  · exact within_zero hr (by norm_num)
  all_goals
    have hn : Within x 9 := near_abs hr hx (by simpa using h1) (by norm_num) (by norm_num)
    obtain ⟨ha, hb⟩ := gsArgs hr hn
    have hq := within_lit hr (1 / 4) (C := 1) (by norm_num) (by norm_num)
  · have he : Within (Libm.exp (Arith.neg x *ᶠ (Libm.sqrt (lit 2) +ᶠ x))) (10 ^ 60) :=
      within_exp hr 120 (within_mul hr (within_neg hn) hb (by norm_num) (by norm_num)) (by norm_num) (by norm_num)
    have h5 := within_mul hr (within_mul hr (within_lit hr 2 (C := 3) (by norm_num) (by norm_num)) he (C := 10 ^ 61)
      (by norm_num) (by norm_num)) hn (C := 10 ^ 63) (by norm_num) (by norm_num)
    have h6 := within_mul hr hs (within_erfc hr (within_add hr (inv_sqrt2 hr) hn (C := 12) (by norm_num)
      (by norm_num)).number) (C := 50) (by norm_num) (by norm_num)
    exact within_mul hr hq (within_add hr h5 h6 (C := 10 ^ 64) (by norm_num) (by norm_num)) (by norm_num) (by norm_num)
  · have he : Within (Libm.exp (x *ᶠ (Libm.sqrt (lit 2) -ᶠ x))) (10 ^ 60) :=
      within_exp hr 120 (within_mul hr hn ha (by norm_num) (by norm_num)) (by norm_num) (by norm_num)
    have h5 := within_mul hr (within_mul hr (within_lit hr (-2) (C := 3) (by norm_num) (by norm_num)) he (C := 10 ^ 61)
      (by norm_num) (by norm_num)) hn (C := 10 ^ 63) (by norm_num) (by norm_num)
    have h6 := within_mul hr hs (within_erfc hr (within_sub hr (inv_sqrt2 hr) hn (C := 12) (by norm_num)
      (by norm_num)).number) (C := 50) (by norm_num) (by norm_num)
    exact within_mul hr hq (within_add hr h5 h6 (C := 10 ^ 64) (by norm_num) (by norm_num)) (by norm_num) (by norm_num)

/-! ## Cold smearing -/

theorem coldFnF_within {x mo : F64 r} (hx : IsNumber x) (hmo : Within mo 1000) : Within (coldFnF x mo) (10 ^ 150) := by
  unfold coldFnF
  split_ifs with h1 h2
  · exact hmo.mono (by norm_num)
  · exact within_zero hr (by norm_num)
  · have hn : Within x 9 := near hr hx (by simpa using h2) (by simpa using h1) (by norm_num) (by norm_num) (by norm_num)
    obtain ⟨ha, hb⟩ := gsArgs hr hn
    have harg := within_add hr (within_lit hr (-1 / 2) (C := 1) (by norm_num) (by norm_num))
      (within_mul hr ha hn (C := 110) (by norm_num) (by norm_num)) (C := (120 : ℕ)) (by norm_num) (by norm_num)
    have he := within_exp hr 120 harg (C := 10 ^ 60) (by norm_num) (by norm_num)
    have h3 := within_div hr (within_div hr he (within_sqrt2 hr).2 (by norm_num) (C := 10 ^ 61) (by norm_num)
      (by norm_num)) (within_sqrtpi hr).2 (by norm_num) (C := 10 ^ 62) (by norm_num) (by norm_num)
    have h4 := within_mul hr (within_lit hr (1 / 2) (C := 1) (by norm_num) (by norm_num)) (within_erfc hr
      (within_sub hr (inv_sqrt2 hr) hn (C := 12) (by norm_num) (by norm_num)).number) (C := 3) (by norm_num) (by norm_num)
    exact within_mul hr hmo (within_add hr h3 h4 (C := 10 ^ 63) (by norm_num) (by norm_num)) (by norm_num) (by norm_num)

/-- the Gaussian in the cold smearing, times the occupancy -/
theorem coldGauss {x mo : F64 r} (hn : Within x 11) (hmo : Within mo 1000) :
    Within (mo *ᶠ Libm.exp (Arith.neg (x -ᶠ lit 1 /ᶠ Libm.sqrt (lit 2)) *ᶠ (x -ᶠ lit 1 /ᶠ Libm.sqrt (lit 2)))) (10 ^ 110) := by
  have hz := within_sub hr hn (inv_sqrt2 hr) (C := 14) (by norm_num) (by norm_num)
  have he := within_exp hr 200 (within_mul hr (within_neg hz) hz (by norm_num) (by norm_num)) (C := 10 ^ 100)
    (by norm_num) (by norm_num)
  exact within_mul hr hmo he (by norm_num) (by norm_num)

theorem coldDeltaF_within {x mo : F64 r} (hx : IsNumber x) (hmo : Within mo 1000) :
    Within (coldDeltaF x mo) (10 ^ 150) := by
  unfold coldDeltaF
  split_ifs with h1 h2
  · exact within_zero hr (by norm_num)
  · exact within_zero hr (by norm_num)
  · have hn : Within x 11 := near hr hx (by simpa using h1) (by simpa using h2) (by norm_num) (by norm_num) (by norm_num)
    have h3 := within_sub hr (within_lit hr 2 (C := 3) (by norm_num) (by norm_num))
      (within_mul hr (within_sqrt2 hr).1 hn (C := 30) (by norm_num) (by norm_num)) (C := 40) (by norm_num) (by norm_num)
    exact within_div hr (within_mul hr (coldGauss hr hn hmo) h3 (C := 10 ^ 120) (by norm_num) (by norm_num))
      (within_sqrtpi hr).2 (by norm_num) (by norm_num) (by norm_num)

theorem coldDxdeltaF_within {x mo : F64 r} (hx : IsNumber x) (hmo : Within mo 1000) :
    Within (coldDxdeltaF x mo) (10 ^ 150) := by
  unfold coldDxdeltaF
  split_ifs with h1 h2
  · exact within_zero hr (by norm_num)
  · exact within_zero hr (by norm_num)
  · have hn : Within x 11 := near hr hx (by simpa using h1) (by simpa using h2) (by norm_num) (by norm_num) (by norm_num)
    have h3 := within_sub hr (within_sqrt2 hr).1 (within_mul hr (within_lit hr 6 (C := 7) (by norm_num) (by norm_num)) hn
      (C := 80) (by norm_num) (by norm_num)) (C := 90) (by norm_num) (by norm_num)
    have h4 := within_mul hr (within_mul hr (within_mul hr (within_lit hr 2 (C := 3) (by norm_num) (by norm_num))
      (within_sqrt2 hr).1 (C := 7) (by norm_num) (by norm_num)) hn (C := 80) (by norm_num) (by norm_num)) hn (C := 900)
      (by norm_num) (by norm_num)
    exact within_div hr (within_mul hr (coldGauss hr hn hmo) (within_add hr h3 h4 (C := 1000) (by norm_num) (by norm_num))
      (C := 10 ^ 120) (by norm_num) (by norm_num)) (within_sqrtpi hr).2 (by norm_num) (by norm_num) (by norm_num)

theorem coldEntropyF_within {x mo : F64 r} (hx : IsNumber x) (hmo : Within mo 1000) :
    Within (coldEntropyF x mo) (10 ^ 150) := by
  unfold coldEntropyF
  split_ifs with h1 h2
  · exact within_zero hr (by norm_num)
  · exact within_zero hr (by norm_num)
  · have hn : Within x 11 := near hr hx (by simpa using h1) (by simpa using h2) (by norm_num) (by norm_num) (by norm_num)
    have h3 := within_sub hr (within_lit hr 1 (C := 3) (by norm_num) (by norm_num))
      (within_mul hr (within_sqrt2 hr).1 hn (C := 30) (by norm_num) (by norm_num)) (C := 40) (by norm_num) (by norm_num)
    obtain ⟨l, el, hl⟩ := lit_val hr 2 (by norm_num)
    rw [abs_le] at hl
    norm_num at hl
    have h4 := within_div hr (within_mul hr (coldGauss hr hn hmo) h3 (C := 10 ^ 120) (by norm_num) (by norm_num))
      (m := 1) ⟨l, el, by linarith⟩ (by norm_num) (C := 10 ^ 121) (by norm_num) (by norm_num)
    exact within_div hr h4 (within_sqrtpi hr).2 (by norm_num) (by norm_num) (by norm_num)

/-! ## Gauss and Methfessel-Paxton smearing -/

/-- `exp` of minus a rounded square -/
theorem exp_norm_neg {t : ℝ} (ht : t ≤ 0) : Within (Libm.exp (F64.norm t : F64 r)) 2 := by
  unfold F64.norm
  split_ifs with h
  · have h1 := hr.rnd t
    rw [abs_of_nonpos ht, abs_le] at h1
    set s := r.rnd t
    have h2 : s ≤ 1 / 2 := by norm_num at h1; linarith
    have h3 : Real.exp s ≤ 1.9 := by
      have h4 := Real.exp_le_exp.2 h2
      have h5 : Real.exp (1 / 2) * Real.exp (1 / 2) = Real.exp 1 := by rw [← Real.exp_add]; norm_num
      have h6 := Real.exp_one_lt_d9
      have h7 := Real.exp_pos (1 / 2)
      norm_num at h6 ⊢
      nlinarith
    have h8 : Real.exp s < r.huge := lt_of_lt_of_le (lt_of_le_of_lt h3 (by norm_num)) hr.huge
    refine ⟨r.exp s, if_pos h8, ?_⟩
    have h9 := hr.exp s
    have h10 := Real.exp_pos s
    rw [abs_le] at h9 ⊢
    norm_num at h9 h3
    constructor <;> linarith
  · have h0 := hr.huge
    have hneg : t < 0 := by
      rcases ht.lt_or_eq with h' | rfl
      · exact h'
      · rw [abs_zero] at h
        exact absurd (lt_of_lt_of_le (by norm_num) h0) h
    rw [decide_eq_true hneg]
    exact ⟨0, rfl, by norm_num⟩

theorem exp_negsq {x : F64 r} (hx : IsNumber x) : Within (Libm.exp (Arith.neg x *ᶠ x)) 2 := by
  rcases x with y | s | _
  · exact exp_norm_neg hr (t := -y * y) (by nlinarith [sq_nonneg y])
  · cases s <;> exact ⟨0, rfl, by norm_num⟩
  · exact absurd rfl hx

theorem exp_negsq' {x : F64 r} (hx : Within x (10 ^ 60)) : Within (Libm.exp (Arith.neg (x *ᶠ x))) 2 := by
  obtain ⟨y, rfl, hy⟩ := hx
  have hle : |y * y| ≤ 10 ^ 120 := by
    rw [abs_mul]
    calc |y| * |y| ≤ 10 ^ 60 * 10 ^ 60 := mul_le_mul hy hy (abs_nonneg y) (by norm_num)
      _ = 10 ^ 120 := by norm_num
  have h1 : |y * y| < r.huge := lt_of_lt_of_le (lt_of_le_of_lt hle (by norm_num)) hr.huge
  have e : (Arith.neg ((.num y : F64 r) *ᶠ .num y)) = .num (-r.rnd (y * y)) := by
    show F64.neg (F64.norm (y * y)) = _
    rw [F64.norm, if_pos h1]
    rfl
  rw [e]
  have h2 := hr.rnd (y * y)
  rw [abs_of_nonneg (mul_self_nonneg y), abs_le] at h2
  have h0 := mul_self_nonneg y
  set s := -r.rnd (y * y) with hs
  have h2' : s ≤ 1 / 2 := by norm_num at h2; linarith
  have h3 : Real.exp s ≤ 1.9 := by
    have h4 := Real.exp_le_exp.2 h2'
    have h5 : Real.exp (1 / 2) * Real.exp (1 / 2) = Real.exp 1 := by rw [← Real.exp_add]; norm_num
    have h6 := Real.exp_one_lt_d9
    have h7 := Real.exp_pos (1 / 2)
    norm_num at h6 ⊢
    nlinarith
  have h8 : Real.exp s < r.huge := lt_of_lt_of_le (lt_of_le_of_lt h3 (by norm_num)) hr.huge
  refine ⟨r.exp s, if_pos h8, ?_⟩
  have h9 := hr.exp s
  have h10 := Real.exp_pos s
  rw [abs_le] at h9 ⊢
  norm_num at h9 h3
  constructor <;> linarith

theorem half_mo {mo : F64 r} (hmo : Within mo 1000) : Within (mo /ᶠ lit 2) 2000 := by
  obtain ⟨l, el, hl⟩ := lit_val hr 2 (by norm_num)
  rw [abs_le] at hl
  norm_num at hl
  exact within_div hr hmo (m := 1) ⟨l, el, by linarith⟩ (by norm_num) (by norm_num) (by norm_num)

theorem gaussFnF_within {x mo : F64 r} (hx : IsNumber x) (hmo : Within mo 1000) : Within (gaussFnF x mo) (10 ^ 150) :=
  within_mul hr (half_mo hr hmo) (within_add hr (within_lit hr 1 (C := 2) (by norm_num) (by norm_num))
    (within_erf hr hx) (C := 4) (by norm_num) (by norm_num)) (by norm_num) (by norm_num)

theorem gaussDeltaF_within {x mo : F64 r} (hx : IsNumber x) (hmo : Within mo 1000) :
    Within (gaussDeltaF x mo) (10 ^ 150) :=
  within_div hr (within_mul hr hmo (exp_negsq hr hx) (C := 3000) (by norm_num) (by norm_num)) (within_sqrtpi hr).2
    (by norm_num) (by norm_num) (by norm_num)

theorem gaussEntropyF_within {x mo : F64 r} (hx : IsNumber x) (hmo : Within mo 1000) :
    Within (gaussEntropyF x mo) (10 ^ 150) :=
  within_div hr (within_mul hr (half_mo hr hmo) (exp_negsq hr hx) (C := 5000) (by norm_num) (by norm_num))
    (within_sqrtpi hr).2 (by norm_num) (by norm_num) (by norm_num)

theorem gaussDxdeltaF_within {x mo : F64 r} (hx : Within x (10 ^ 60)) (hmo : Within mo 1000) :
    Within (gaussDxdeltaF x mo) (10 ^ 150) := by
  have h1 := within_mul hr (within_lit hr (-2) (C := 3) (by norm_num) (by norm_num)) hmo (C := 4000) (by norm_num)
    (by norm_num)
  have h2 := within_mul hr h1 (exp_negsq hr hx.number) (C := 9000) (by norm_num) (by norm_num)
  exact within_div hr (within_mul hr h2 hx (C := 10 ^ 70) (by norm_num) (by norm_num)) (within_sqrtpi hr).2
    (by norm_num) (by norm_num) (by norm_num)

theorem mpFnF_within {x mo : F64 r} (hx : Within x (10 ^ 60)) (hmo : Within mo 1000) :
    Within (mpFnF x mo) (10 ^ 150) := by
  have h1 := within_div hr (within_mul hr (exp_negsq' hr hx) hx (C := 10 ^ 61) (by norm_num) (by norm_num))
    (within_sqrtpi hr).2 (by norm_num) (C := 10 ^ 62) (by norm_num) (by norm_num)
  have h2 := within_add hr (within_lit hr 1 (C := 2) (by norm_num) (by norm_num)) h1 (C := 10 ^ 63) (by norm_num)
    (by norm_num)
  exact within_mul hr (half_mo hr hmo) (within_add hr h2 (within_erf hr hx.number) (C := 10 ^ 64) (by norm_num)
    (by norm_num)) (by norm_num) (by norm_num)

theorem mpDeltaF_within {x mo : F64 r} (hx : Within x (10 ^ 60)) (hmo : Within mo 1000) :
    Within (mpDeltaF x mo) (10 ^ 150) := by
  have hxx := within_mul hr hx hx (C := 10 ^ 121) (by norm_num) (by norm_num)
  have h1 := within_sub hr (within_lit hr 2 (C := 3) (by norm_num) (by norm_num)) (within_mul hr
    (within_lit hr 4 (C := 5) (by norm_num) (by norm_num)) hxx (C := 10 ^ 122) (by norm_num) (by norm_num))
    (C := 10 ^ 123) (by norm_num) (by norm_num)
  have h2 := within_add hr (within_lit hr 1 (C := 2) (by norm_num) (by norm_num)) (within_mul hr
    (within_lit hr (1 / 4) (C := 1) (by norm_num) (by norm_num)) h1 (C := 10 ^ 124) (by norm_num) (by norm_num))
    (C := 10 ^ 125) (by norm_num) (by norm_num)
  exact within_div hr (within_mul hr (within_mul hr hmo (exp_negsq' hr hx) (C := 3000) (by norm_num) (by norm_num)) h2
    (C := 10 ^ 130) (by norm_num) (by norm_num)) (within_sqrtpi hr).2 (by norm_num) (by norm_num) (by norm_num)

theorem mpDxdeltaF_within {x mo : F64 r} (hx : Within x (10 ^ 60)) (hmo : Within mo 1000) :
    Within (mpDxdeltaF x mo) (10 ^ 150) := by
  have h1 := within_mul hr (within_mul hr (within_lit hr 2 (C := 3) (by norm_num) (by norm_num)) hx (C := 10 ^ 61)
    (by norm_num) (by norm_num)) hx (C := 10 ^ 122) (by norm_num) (by norm_num)
  have h2 := within_sub hr h1 (within_lit hr 5 (C := 6) (by norm_num) (by norm_num)) (C := 10 ^ 123) (by norm_num)
    (by norm_num)
  exact within_div hr (within_mul hr (within_mul hr hmo (exp_negsq hr hx.number) (C := 3000) (by norm_num)
    (by norm_num)) h2 (C := 10 ^ 130) (by norm_num) (by norm_num)) (within_sqrtpi hr).2 (by norm_num) (by norm_num)
    (by norm_num)

theorem mpEntropyF_within {x mo : F64 r} (hx : Within x (10 ^ 60)) (hmo : Within mo 1000) :
    Within (mpEntropyF x mo) (10 ^ 150) := by
  have hxx := within_mul hr hx hx (C := 10 ^ 121) (by norm_num) (by norm_num)
  have h1 := within_sub hr (within_lit hr 1 (C := 3) (by norm_num) (by norm_num)) (within_mul hr
    (within_lit hr 2 (C := 5) (by norm_num) (by norm_num)) hxx (C := 10 ^ 122) (by norm_num) (by norm_num))
    (C := 10 ^ 123) (by norm_num) (by norm_num)
  obtain ⟨l, el, hl⟩ := lit_val hr 4 (by norm_num)
  rw [abs_le] at hl
  norm_num at hl
  have h2 := within_mul hr (within_mul hr hmo (exp_negsq' hr hx) (C := 3000) (by norm_num) (by norm_num)) h1
    (C := 10 ^ 130) (by norm_num) (by norm_num)
  have h3 := within_div hr h2 (m := 1) ⟨l, el, by linarith⟩ (by norm_num) (C := 10 ^ 131) (by norm_num) (by norm_num)
  exact within_div hr h3 (within_sqrtpi hr).2 (by norm_num) (by norm_num) (by norm_num)

/-! ## The search for the chemical potential -/

theorem cpState_within (f : F64 r → F64 r) (n : ℕ) (hn : n ≤ 1000) :
    Within (((cpBody f)^[n] (cpInit (lit 0))).de) (1.3 ^ n) ∧
    Within (((cpBody f)^[n] (cpInit (lit 0))).mu) (10 * 1.3 ^ n) := by
  induction n with
  | zero =>
    simp only [Function.iterate_zero, id, cpInit, pow_zero]
    exact ⟨within_lit hr (1 / 10) (by norm_num) (by norm_num), within_lit hr 0 (by norm_num) (by norm_num)⟩
  | succ n ih =>
    obtain ⟨h1, h2⟩ := ih (by omega)
    rw [Function.iterate_succ_apply']
    set st := (cpBody f)^[n] (cpInit (lit 0 : F64 r))
    have hp1 : (1 : ℝ) ≤ 1.3 ^ n := one_le_pow₀ (by norm_num)
    have hp2 : (1.3 : ℝ) ^ n ≤ 1.3 ^ 1000 := pow_le_pow_right₀ (by norm_num) (by omega)
    have hp3 : (1.3 : ℝ) ^ 1000 ≤ 10 ^ 120 := by
      have h : (1.3 : ℝ) ^ 50 ≤ 10 ^ 6 := by norm_num
      calc (1.3 : ℝ) ^ 1000 = (1.3 ^ 50) ^ 20 := by rw [← pow_mul]
        _ ≤ (10 ^ 6) ^ 20 := pow_le_pow_left₀ (by positivity) h 20
        _ = 10 ^ 120 := by rw [← pow_mul]
    have hQ : (1.3 : ℝ) ^ (n + 1) = 1.3 ^ n * 1.3 := pow_succ _ _
    rw [hQ]
    set P : ℝ := 1.3 ^ n
    have hP : P ≤ 10 ^ 120 := hp2.trans hp3
    have hde : Within (cpBody f st).de (P * 1.3) := by
      simp only [cpBody]
      have h54 := within_lit hr (5 / 4) (C := 1.2523) (by norm_num) (by norm_num)
      have h14 := within_lit hr (1 / 4) (C := 1) (by norm_num) (by norm_num)
      have hP2 : P * 1.2523 ≤ 10 ^ 199 := (mul_le_mul_of_nonneg_right hP (by norm_num)).trans (by norm_num)
      have hP3 : P * 1 ≤ 10 ^ 199 := (mul_le_mul_of_nonneg_right hP (by norm_num)).trans (by norm_num)
      split_ifs
      · exact within_mul hr h1 h54 (by norm_num; linarith) hP2
      · exact within_mul hr h1 h14 (by norm_num; linarith) hP3
      · exact within_mul hr h1 h54 (by norm_num; linarith) hP2
      · exact within_mul hr h1 h14 (by norm_num; linarith) hP3
    refine ⟨hde, ?_⟩
    have hs : Within (lit (((cpBody f st).s : ℤ) : ℚ) : F64 r) 1.002 := by
      simp only [cpBody]
      split_ifs
      · exact within_lit hr _ (by norm_num) (by norm_num)
      · exact within_lit hr _ (by norm_num) (by norm_num)
    have hm := within_mul hr hs hde (C := P * 1.4) (by norm_num; linarith)
      (by
        have : 1.002 * (P * 1.3) ≤ 1.002 * (10 ^ 120 * 1.3) := by
          apply mul_le_mul_of_nonneg_left _ (by norm_num)
          exact mul_le_mul_of_nonneg_right hP (by norm_num)
        exact this.trans (by norm_num))
    have e : (cpBody f st).mu = st.mu +ᶠ (lit (((cpBody f st).s : ℤ) : ℚ) *ᶠ (cpBody f st).de) := rfl
    rw [e]
    refine within_add hr h2 hm (by norm_num; linarith) ?_
    have : 10 * P + P * 1.4 ≤ 10 * 10 ^ 120 + 10 ^ 120 * 1.4 :=
      add_le_add (mul_le_mul_of_nonneg_left hP (by norm_num)) (mul_le_mul_of_nonneg_right hP (by norm_num))
    exact this.trans (by norm_num)

theorem findChemPotRun_within (f : F64 r → F64 r) (tol mu : F64 r) (h : findChemPotRun f (lit 0) tol = .ok mu) :
    Within mu (10 ^ 125) := by
  obtain ⟨j, hj, hw, -⟩ := findChemPot_eq (f := f) (mu0 := lit 0) (tol := tol)
  rw [findChemPotRun, hw _ (by omega)] at h
  simp only [cpFinish] at h
  split_ifs at h
  cases h
  refine (cpState_within hr f j hj).2.mono ?_
  have h1 : (1.3 : ℝ) ^ j ≤ 1.3 ^ 1000 := pow_le_pow_right₀ (by norm_num) hj
  have h2 : (1.3 : ℝ) ^ 50 ≤ 10 ^ 6 := by norm_num
  have h3 : (1.3 : ℝ) ^ 1000 ≤ 10 ^ 120 := by
    calc (1.3 : ℝ) ^ 1000 = (1.3 ^ 50) ^ 20 := by rw [← pow_mul]
      _ ≤ (10 ^ 6) ^ 20 := pow_le_pow_left₀ (by positivity) h2 20
      _ = 10 ^ 120 := by rw [← pow_mul]
  calc 10 * (1.3 : ℝ) ^ j ≤ 10 * 10 ^ 120 := mul_le_mul_of_nonneg_left (h1.trans h3) (by norm_num)
    _ ≤ 10 ^ 125 := by norm_num

omit hr in
/-- the reduced distance of a level from the chemical potential -/
theorem reduced_number {mu e kT : ℝ} (hk : 0 < kT) :
    IsNumber (((.num mu : F64 r) -ᶠ .num e) /ᶠ .num kT) := by
  show F64.div (F64.norm (mu + -e)) (.num kT) ≠ .nan
  have key : ∀ x : ℝ, (F64.norm x : F64 r) ≠ .nan := by
    intro x
    unfold F64.norm
    split_ifs <;> simp
  unfold F64.norm
  split_ifs
  · rw [F64.div, if_neg hk.ne']
    exact key _
  · simp [F64.div]

theorem smearFl_fn_within {t : SmearType} (ht : t ≠ .methfesselPaxton) {x mo : F64 r} (hx : IsNumber x)
    (hmo : Within mo 1000) : Within ((smearFl t).fn x mo) (10 ^ 150) := by
  cases t
  · exact fdFnF_within hr hx hmo
  · exact gsFnF_within hr hx hmo
  · exact gaussFnF_within hr hx hmo
  · exact absurd rfl ht
  · exact coldFnF_within hr hx hmo

end

end Nlcg
