import Verif.Spec.FloatRun
import Verif.Proofs.LineSearchReal
import Verif.Proofs.Reduce

/-! Step lengths in floating point: they shrink below the limit, and they grow until their square overflows. -/

namespace Nlcg
open Spec Arith

theorem nthStep_succ {α : Type} [Arith α] (t m : α) (n : ℕ) : nthStep t m (n + 1) = nthStep t m n *ᶠ m := by
  induction n generalizing t with
  | zero => rfl
  | succ n ih => rw [nthStep, ih]; rfl

variable {r : Rounding} {u : ℝ}

theorem F64.lit_eq (q : ℚ) : (lit q : F64 r) = F64.norm (q : ℝ) := rfl

theorem F64.num_mul (a b : ℝ) : (F64.num a *ᶠ F64.num b : F64 r) = F64.norm (a * b) := rfl

theorem F64.norm_small {x : ℝ} (h : |x| < r.huge) : (F64.norm x : F64 r) = .num (r.rnd x) := if_pos h

theorem F64.lt_num (a b : ℝ) : ((F64.num a : F64 r) <ᶠ F64.num b) = decide (a < b) := rfl

theorem F64.le_num (a b : ℝ) : ((F64.num a : F64 r) ≤ᶠ F64.num b) = (decide (a < b) || decide (a = b)) := rfl

section
variable (hr : NoStall r u)
include hr

theorem Spec.NoStall.lit {q : ℚ} (h : |(q : ℝ)| < 10) : (Arith.lit q : F64 r) = .num (r.rnd q) :=
  F64.norm_small (lt_of_lt_of_le h hr.huge)

theorem Spec.NoStall.limit : ∃ c : ℝ, (Arith.lit (1 / 10 ^ 8) : F64 r) = .num c ∧ 5 / 10 ^ 9 ≤ c := by
  refine ⟨_, hr.lit (by norm_num), ?_⟩
  have := hr.down (((1 / 10 ^ 8 : ℚ)) : ℝ) (by norm_num)
  refine le_trans ?_ this
  norm_num

theorem Spec.NoStall.first : ∃ t : ℝ, (Arith.lit (2 / 10) : F64 r) = .num t ∧ 1 / 10 ≤ t ∧ t ≤ 1 := by
  refine ⟨_, hr.lit (by norm_num), ?_, ?_⟩
  · have := hr.down (((2 / 10 : ℚ)) : ℝ) (by norm_num)
    refine le_trans ?_ this
    norm_num
  · have := hr.up (((2 / 10 : ℚ)) : ℝ) (by norm_num)
    refine this.trans ?_
    have h1 := hr.u_pos
    have h2 := hr.u_le
    push_cast
    nlinarith

/-- a positive step below 1, multiplied by a positive number of the format below 1 -/
theorem Spec.NoStall.shrink {t a : ℝ} (ht : 5 / 10 ^ 9 ≤ t) (ht1 : t ≤ 1) (ha : 0 ≤ a) (ha1 : a ≤ 1 - u) :
    ∃ t', (F64.num t *ᶠ F64.num a : F64 r) = .num t' ∧ t' ≤ (1 - 4 / 5 * u ^ 2) * t := by
  have h1 := hr.u_pos
  have h2 := hr.u_le
  have h0 : 0 ≤ t * a := mul_nonneg (by linarith [show (0 : ℝ) ≤ 5 / 10 ^ 9 by norm_num]) ha
  have hle : t * a ≤ t * (1 - u) := mul_le_mul_of_nonneg_left ha1 (le_trans (by norm_num) ht)
  have h3 : t * a ≤ 1 := by nlinarith
  refine ⟨r.rnd (t * a), ?_, (hr.up _ h0).trans ?_⟩
  · rw [F64.num_mul, F64.norm_small]
    rw [abs_of_nonneg h0]
    linarith [hr.huge]
  · have h4 : (1 + u) * (t * a) ≤ (1 + u) * (t * (1 - u)) := mul_le_mul_of_nonneg_left hle (by linarith)
    have h5 : u ^ 2 / 10 ^ 9 ≤ 1 / 5 * u ^ 2 * t := by
      have : 1 / 5 * u ^ 2 * (5 / 10 ^ 9) ≤ 1 / 5 * u ^ 2 * t := mul_le_mul_of_nonneg_left ht (by positivity)
      refine le_trans (le_of_eq ?_) this
      ring
    nlinarith

/-- the steps of backtracking fall below the limit -/
theorem Spec.NoStall.small_step (tau : F64 r) (hs : Stored tau) (h : (Arith.lit 1 ≤ᶠ tau) = false) :
    ∃ n, (Arith.lit (1 / 10 ^ 8) <ᶠ nthStep (Arith.lit (2 / 10) : F64 r) tau n) = false := by
  obtain ⟨c, hc, hc1⟩ := hr.limit
  obtain ⟨t, ht, ht0, ht1⟩ := hr.first
  have h1 := hr.u_pos
  have h2 := hr.u_le
  rw [hc, ht]
  cases tau with
  | nan => exact ⟨1, rfl⟩
  | inf s =>
    cases s with
    | true =>
      refine ⟨1, ?_⟩
      have : (F64.num t *ᶠ F64.inf true : F64 r) = .inf true := by
        show (if t = 0 then F64.nan else F64.inf (true != decide (t < 0))) = F64.inf true
        rw [if_neg (by intro h; norm_num [h] at ht0), decide_eq_false (by linarith)]
        rfl
      simp only [nthStep, this]
      rfl
    | false =>
      rw [hr.lit (by norm_num)] at h
      rw [show ((F64.num (r.rnd ((1 : ℚ) : ℝ)) : F64 r) ≤ᶠ F64.inf false) = true from rfl] at h
      cases h
  | num a =>
    rw [hr.lit (by norm_num), F64.le_num] at h
    have h' : ¬ (r.rnd ((1 : ℚ) : ℝ) < a ∨ r.rnd ((1 : ℚ) : ℝ) = a) := by
      simpa [Bool.or_eq_false_iff, not_or] using h
    rw [Rat.cast_one, hr.one, not_or, not_lt] at h'
    have ha : a < 1 := lt_of_le_of_ne h'.1 (Ne.symm h'.2)
    have hau := hr.below a hs ha
    rcases le_total a 0 with hn | hp
    · -- one step
      refine ⟨1, ?_⟩
      have : nthStep (F64.num t : F64 r) (.num a) 1 = F64.norm (t * a) := rfl
      rw [this, F64.norm]
      have hta : t * a ≤ 0 := mul_nonpos_of_nonneg_of_nonpos (by linarith) hn
      split
      · rw [F64.lt_num, decide_eq_false]
        have := hr.nonpos _ hta
        intro hlt
        linarith [show (0 : ℝ) < 5 / 10 ^ 9 by norm_num]
      · rename_i hbig
        have hne : t * a ≠ 0 := by
          intro h0
          rw [h0, abs_zero] at hbig
          exact hbig (by linarith [hr.huge])
        rw [decide_eq_true (lt_of_le_of_ne hta hne)]
        rfl
    · by_contra hall
      push Not at hall
      have hq0 : 0 ≤ 1 - 4 / 5 * u ^ 2 := by nlinarith
      have hq1 : 1 - 4 / 5 * u ^ 2 < 1 := by nlinarith [sq_pos_of_pos h1]
      have key : ∀ n, ∃ t', nthStep (F64.num t : F64 r) (.num a) n = .num t' ∧
          t' ≤ (1 - 4 / 5 * u ^ 2) ^ n * t ∧ c < t' := by
        intro n
        induction n with
        | zero =>
          have := hall 0
          refine ⟨t, rfl, by simp, ?_⟩
          simpa [nthStep, F64.lt_num] using this
        | succ n ih =>
          obtain ⟨t', e, hle, hgt⟩ := ih
          have ht' : t' ≤ 1 := hle.trans (mul_le_one₀ (pow_le_one₀ hq0 hq1.le) (by linarith) ht1)
          obtain ⟨t'', e', hle'⟩ := hr.shrink (hc1.trans hgt.le) ht' hp hau
          have e'' : nthStep (F64.num t : F64 r) (.num a) (n + 1) = .num t'' := by rw [nthStep_succ, e, e']
          refine ⟨t'', e'', ?_, ?_⟩
          · calc t'' ≤ (1 - 4 / 5 * u ^ 2) * t' := hle'
              _ ≤ (1 - 4 / 5 * u ^ 2) * ((1 - 4 / 5 * u ^ 2) ^ n * t) := mul_le_mul_of_nonneg_left hle hq0
              _ = _ := by ring
          · have := hall (n + 1)
            rw [e''] at this
            simpa [F64.lt_num] using this
      obtain ⟨n, hn⟩ := exists_pow_lt_of_lt_one (show (0 : ℝ) < 5 / 10 ^ 9 by norm_num) hq1
      obtain ⟨t', -, hle, hgt⟩ := key n
      have : (1 - 4 / 5 * u ^ 2) ^ n * t ≤ (1 - 4 / 5 * u ^ 2) ^ n := mul_le_of_le_one_right (pow_nonneg hq0 n) ht1
      linarith

/-- the steps of the quadratic search grow until the square overflows -/
theorem Spec.NoStall.large_step : ∃ K, (nthStep (Arith.lit (2 / 10) : F64 r) (Arith.lit 5) K *ᶠ
    nthStep (Arith.lit (2 / 10)) (Arith.lit 5) K) = .inf false := by
  obtain ⟨t, ht, ht0, ht1⟩ := hr.first
  obtain ⟨m, hm, hm1⟩ : ∃ m : ℝ, (Arith.lit 5 : F64 r) = .num m ∧ 5 / 2 ≤ m := by
    refine ⟨_, hr.lit (by norm_num), ?_⟩
    have := hr.down ((5 : ℚ) : ℝ) (by norm_num)
    refine le_trans ?_ this
    norm_num
  rw [ht, hm]
  have key : ∀ n, (∃ t', nthStep (F64.num t : F64 r) (.num m) n = .num t' ∧ (5 / 4) ^ n * t ≤ t') ∨
      nthStep (F64.num t : F64 r) (.num m) n = .inf false := by
    intro n
    induction n with
    | zero => exact .inl ⟨t, rfl, by simp⟩
    | succ n ih =>
      rw [nthStep_succ]
      rcases ih with ⟨t', e, hle⟩ | e
      · rw [e, F64.num_mul]
        have hpos : 1 / 10 ≤ t' := by
          refine le_trans ht0 (le_trans ?_ hle)
          exact le_mul_of_one_le_left (by linarith) (one_le_pow₀ (by norm_num))
        have hprod : 5 / 2 * t' ≤ t' * m := by nlinarith
        rw [F64.norm]
        split
        · left
          refine ⟨_, rfl, ?_⟩
          have h3 := hr.down (t' * m) (by nlinarith)
          calc (5 / 4) ^ (n + 1) * t = 5 / 4 * ((5 / 4) ^ n * t) := by ring
            _ ≤ 5 / 4 * t' := by gcongr
            _ ≤ t' * m / 2 := by linarith
            _ ≤ _ := h3
        · right
          rw [decide_eq_false (by nlinarith)]
      · right
        rw [e]
        show (if m = 0 then F64.nan else F64.inf (false != decide (m < 0))) = F64.inf false
        rw [if_neg (by linarith), decide_eq_false (by linarith)]
        rfl
  obtain ⟨K, hK⟩ := pow_unbounded_of_one_lt (r.huge * 10) (show (1 : ℝ) < 5 / 4 by norm_num)
  refine ⟨K, ?_⟩
  rcases key K with ⟨t', e, hle⟩ | e
  · rw [e, F64.num_mul, F64.norm]
    have hh := hr.huge
    have h1 : r.huge < t' := by
      refine lt_of_lt_of_le ?_ hle
      have : (5 / 4 : ℝ) ^ K * (1 / 10) ≤ (5 / 4) ^ K * t := by gcongr
      linarith
    rw [if_neg (by rw [abs_of_nonneg (by nlinarith)]; nlinarith), decide_eq_false (by nlinarith)]
  · rw [e]; rfl

theorem Spec.NoStall.curvature (x : F64 r) : ((x /ᶠ F64.inf false) <ᶠ Arith.lit 0) = false := by
  rw [hr.lit (by norm_num)]
  cases x with
  | num a =>
    show decide ((0 : ℝ) < r.rnd ((0 : ℚ) : ℝ)) = false
    rw [decide_eq_false]
    rw [Rat.cast_zero, not_lt]
    exact hr.nonpos 0 le_rfl
  | inf s => rfl
  | nan => rfl

end

/-! ## Doubles -/

theorem nearest_error (p : ℕ) (x : ℝ) : |nearest p x - x| ≤ (1 / 2) ^ p * |x| := by
  have := nearestAdd_rounded p x 0
  simpa [nearestAdd] using this

theorem round_nonpos {x : ℝ} (h : x ≤ 0) : ((round x : ℤ) : ℝ) ≤ 0 := by
  rw [round_eq]
  have : ⌊x + 1 / 2⌋ < 1 := by rw [Int.floor_lt]; push_cast; linarith
  exact_mod_cast Int.lt_add_one_iff.1 this

theorem doubleRnd_of_le {x : ℝ} (h : 1 / 10 ^ 9 ≤ |x|) : doubleRnd x = nearest 53 x := by
  refine if_neg (not_lt.2 (le_trans ?_ h))
  calc (2 : ℝ) ^ (-1022 : ℤ) ≤ 2 ^ (-30 : ℤ) := zpow_le_zpow_right₀ one_le_two (by norm_num)
    _ ≤ 1 / 10 ^ 9 := by norm_num

theorem doubleRnd_nonpos {x : ℝ} (h : x ≤ 0) : doubleRnd x ≤ 0 := by
  rw [doubleRnd]
  split
  · exact mul_nonpos_of_nonpos_of_nonneg (round_nonpos (div_nonpos_of_nonpos_of_nonneg h (by positivity)))
      (by positivity)
  · exact mul_nonpos_of_nonpos_of_nonneg (round_nonpos (div_nonpos_of_nonpos_of_nonneg h (by positivity)))
      (by positivity)

theorem doubleRnd_up {x : ℝ} (h : 0 ≤ x) : doubleRnd x ≤ (1 + 1 / 2 ^ 53) * x + (1 / 2 ^ 53) ^ 2 / 10 ^ 9 := by
  rw [doubleRnd]
  split
  · have hs : (0 : ℝ) < 2 ^ (-1074 : ℤ) := by positivity
    have h1 := abs_le.1 (abs_sub_round (x / 2 ^ (-1074 : ℤ)))
    have h2 : (round (x / 2 ^ (-1074 : ℤ)) : ℝ) * 2 ^ (-1074 : ℤ) ≤ (x / 2 ^ (-1074 : ℤ) + 1 / 2) * 2 ^ (-1074 : ℤ) := by
      gcongr
      linarith
    have h3 : (x / 2 ^ (-1074 : ℤ) + 1 / 2) * 2 ^ (-1074 : ℤ) = x + 2 ^ (-1074 : ℤ) / 2 := by
      rw [add_mul, div_mul_cancel₀ _ hs.ne']
      ring
    have h4 : (2 : ℝ) ^ (-1074 : ℤ) ≤ 2 ^ (-140 : ℤ) := zpow_le_zpow_right₀ one_le_two (by norm_num)
    have h5 : (2 : ℝ) ^ (-140 : ℤ) ≤ (1 / 2 ^ 53) ^ 2 / 10 ^ 9 := by norm_num
    have h6 : 0 ≤ 1 / 2 ^ 53 * x := by positivity
    refine h2.trans (h3.le.trans ?_)
    rw [add_mul, one_mul]
    exact add_le_add (le_add_of_nonneg_right h6) ((half_le_self hs.le).trans (h4.trans h5))
  · have := (abs_le.1 (nearest_error 53 x)).2
    rw [abs_of_nonneg h, one_div_pow] at this
    have h5 : (0 : ℝ) ≤ (1 / 2 ^ 53) ^ 2 / 10 ^ 9 := by positivity
    linarith

theorem doubleRnd_down {x : ℝ} (h : 1 / 10 ^ 9 ≤ x) : x / 2 ≤ doubleRnd x := by
  have h0 : 0 ≤ x := le_trans (by norm_num) h
  rw [doubleRnd_of_le (by rwa [abs_of_nonneg h0])]
  have := (abs_le.1 (nearest_error 53 x)).1
  rw [abs_of_nonneg h0] at this
  have h2 : ((1 : ℝ) / 2) ^ 53 * x ≤ 1 / 2 * x := by gcongr; norm_num
  linarith

theorem doubleRnd_one : doubleRnd 1 = 1 := by
  rw [doubleRnd_of_le (by norm_num), nearest_eq (e := 0) (by norm_num) (by norm_num)]
  norm_num

theorem doubleRnd_half : doubleRnd (1 / 2) = 1 / 2 := by
  rw [doubleRnd_of_le (by norm_num [abs_of_pos]), nearest_eq (e := -1) (by norm_num [abs_of_pos])
    (by norm_num [abs_of_pos])]
  norm_num

theorem doubleRnd_below {x : ℝ} (h : doubleRnd x = x) (h1 : x < 1) : x ≤ 1 - 1 / 2 ^ 53 := by
  rcases le_or_gt x (1 / 2) with hx | hx
  · refine hx.trans ?_
    norm_num
  · have hax : |x| = x := abs_of_pos (by linarith)
    rw [doubleRnd_of_le (by rw [hax]; refine le_trans ?_ hx.le; norm_num),
      nearest_eq (e := -1) (by rw [hax]; norm_num; linarith) (by rw [hax]; norm_num; linarith)] at h
    set n := round (x / 2 ^ ((-1 : ℤ) - (53 : ℕ) + 1)) with hn
    have hs : (2 : ℝ) ^ ((-1 : ℤ) - (53 : ℕ) + 1) = 1 / 2 ^ 53 := by norm_num
    rw [hs] at h
    have h2 : (n : ℝ) < 2 ^ 53 := by
      rw [← h] at h1
      have : (n : ℝ) * (1 / 2 ^ 53) * 2 ^ 53 < 1 * 2 ^ 53 := by gcongr
      simpa using this
    have h3 : n ≤ 2 ^ 53 - 1 := by
      have : n < 2 ^ 53 := by exact_mod_cast h2
      omega
    have h4 : (n : ℝ) ≤ 2 ^ 53 - 1 := by exact_mod_cast h3
    rw [← h]
    calc (n : ℝ) * (1 / 2 ^ 53) ≤ (2 ^ 53 - 1) * (1 / 2 ^ 53) := by gcongr
      _ = 1 - 1 / 2 ^ 53 := by norm_num

theorem double_noStall : NoStall double (1 / 2 ^ 53) where
  u_pos := by positivity
  u_le := by norm_num
  up _ h := doubleRnd_up h
  down _ h := doubleRnd_down h
  nonpos _ h := doubleRnd_nonpos h
  one := doubleRnd_one
  below _ h h1 := doubleRnd_below h h1
  huge := by
    show (10 : ℝ) ≤ 2 ^ 1024 - 2 ^ 970
    rw [show (2 : ℝ) ^ 1024 = 2 ^ 54 * 2 ^ 970 by rw [← pow_add]]
    have : (1 : ℝ) ≤ 2 ^ 970 := one_le_pow₀ one_le_two
    generalize (2 : ℝ) ^ 970 = x at *
    nlinarith

/-! ## Upward rounding -/

theorem upward_eq {x : ℝ} {e : ℤ} (h1 : (2 : ℝ) ^ e ≤ |x|) (h2 : |x| < 2 ^ (e + 1)) :
    upward x = (⌈x / 2 ^ (e - 52)⌉ : ℝ) * 2 ^ (e - 52) := by
  have hx : 0 < |x| := lt_of_lt_of_le (zpow_pos two_pos _) h1
  have : Int.log 2 |x| = e := by
    apply le_antisymm
    · have := (Int.lt_zpow_iff_log_lt (b := 2) one_lt_two hx (x := e + 1)).1 (by exact_mod_cast h2)
      omega
    · exact (Int.zpow_le_iff_le_log (b := 2) one_lt_two hx).1 (by exact_mod_cast h1)
  rw [upward, this]

theorem upward_ceil {x : ℝ} {e k : ℤ} (h1 : (2 : ℝ) ^ e ≤ |x|) (h2 : |x| < 2 ^ (e + 1))
    (h3 : (k - 1) * 2 ^ (e - 52) < x) (h4 : x ≤ k * 2 ^ (e - 52)) : upward x = k * 2 ^ (e - 52) := by
  have hs : (0 : ℝ) < 2 ^ (e - 52) := zpow_pos two_pos _
  rw [upward_eq h1 h2, Int.ceil_eq_iff.2 ⟨by rwa [lt_div_iff₀ hs], by rwa [div_le_iff₀ hs]⟩]

end Nlcg
