import Verif.Proofs.LineSearch
import Verif.Model.ArithOverflow
import Mathlib.Analysis.SpecialFunctions.Log.Basic
import Mathlib.Tactic.Linarith
import Mathlib.Tactic.Positivity
import Mathlib.Tactic.FieldSimp
import Mathlib.Tactic.Ring

/-! Termination of the line search. -/

namespace Nlcg
open Arith
variable {α σ ρ : Type} [Arith α]

/-- the `n`-th element of the sequence `t, t*m, t*m*m, ...` -/
def nthStep (t m : α) : Nat → α
  | 0 => t
  | n + 1 => nthStep (t *ᶠ m) m n

theorem nthStep_real (t m : ℝ) (n : Nat) : nthStep t m n = t * m ^ n := by
  induction n generalizing t with
  | zero => simp [nthStep]
  | succ n ih => simp only [nthStep, ih, real_mul]; ring

theorem geomSteps_real (t m : ℝ) (k : Nat) :
    geomSteps t m k = (List.range k).map (fun i => t * m ^ i) := by
  induction k generalizing t with
  | zero => simp [geomSteps]
  | succ k ih =>
    rw [geomSteps, ih, List.range_succ_eq_map]
    simp only [List.map_cons, pow_zero, mul_one, List.map_map, real_mul]
    congr 1
    apply List.map_congr_left
    intro i _
    simp only [Function.comp, Nat.succ_eq_add_one, pow_succ]
    ring

/-- The backtracking loop stops as soon as some step of the sequence is not above the limit. -/
theorem btLoop_ne_none (env : LSEnv α σ ρ) (tau F0 : α) :
    ∀ (n k : Nat) (t : α) (st : LSState α σ), n ≤ k →
      (lit (1 / 10 ^ 8) <ᶠ nthStep t tau n) = false → btLoop env tau F0 k t st ≠ none := by
  intro n
  induction n with
  | zero =>
    intro k t st _ h
    simp only [nthStep] at h
    cases k <;> (rw [btLoop, if_neg (by rw [h]; simp)]; simp)
  | succ n ih =>
    intro k t st hk h
    obtain ⟨k, rfl⟩ : ∃ j, k = j + 1 := ⟨k - 1, by omega⟩
    rw [btLoop]
    split
    case isFalse => simp
    case isTrue =>
      intro hb
      rcases evalG_bind hb with ⟨r, st1, he, h2⟩ | ⟨st1, e, he, h2⟩ | ⟨st1, he, h2⟩ | ⟨st1, he, h2⟩
      · rw [readF_bind] at h2
        split at h2
        · simp [setRestart_bind] at h2
        · exact ih k _ _ (by omega) h h2
      all_goals simp at h2

theorem btSearch_ne_none (env : LSEnv α σ ρ) (p : LSParams α) (F0 : α) (n fuel : Nat)
    (hn : n ≤ fuel) (h : (lit (1 / 10 ^ 8) <ᶠ nthStep p.tTrial p.tau n) = false)
    (st : LSState α σ) : btSearch env p fuel F0 st ≠ none := by
  rw [btSearch]
  split
  · simp
  · rw [FM.bind_apply]
    have := btLoop_ne_none env p.tau F0 n fuel p.tTrial st hn h
    cases hb : btLoop env p.tau F0 fuel p.tTrial st with
    | none => exact absurd hb this
    | some q =>
      obtain ⟨b, stm⟩ := q
      cases b with
      | ok w =>
        cases w with
        | some r => simp
        | none =>
          simp only [get_bind]
          split
          · simp
          · rw [setRestart_bind]; exact evalG_ne_none _ _ _
      | _ => simp

/-- The quadratic search stops enlarging as soon as the curvature at some step of the sequence
cannot be negative. -/
theorem qlineLoop_ne_none (env : LSEnv α σ ρ) (F0 slope : α) :
    ∀ (n k : Nat) (t : α) (st : LSState α σ), n < k →
      (∀ t' s0 r s, env.G t' s0 = (.ok r, s) →
        (qCurv F0 slope (env.getF s) (nthStep t (lit 5) n) <ᶠ lit 0) = false) →
      qlineLoop env F0 slope k t st ≠ none := by
  intro n
  induction n with
  | zero =>
    intro k t st hk h hb
    obtain ⟨k, rfl⟩ : ∃ j, k = j + 1 := ⟨k - 1, by omega⟩
    rw [qlineLoop] at hb
    rcases evalG_bind hb with ⟨r, st1, he, h2⟩ | ⟨st1, e, he, h2⟩ | ⟨st1, he, h2⟩ | ⟨st1, he, h2⟩
    · rw [readF_bind] at h2
      have := h _ _ _ _ (evalG_ok he).1
      simp only [nthStep] at this
      rw [if_neg (by simp [this])] at h2
      simp at h2
    all_goals simp at h2
  | succ n ih =>
    intro k t st hk h hb
    obtain ⟨k, rfl⟩ : ∃ j, k = j + 1 := ⟨k - 1, by omega⟩
    rw [qlineLoop] at hb
    rcases evalG_bind hb with ⟨r, st1, he, h2⟩ | ⟨st1, e, he, h2⟩ | ⟨st1, he, h2⟩ | ⟨st1, he, h2⟩
    · rw [readF_bind] at h2
      split at h2
      · exact ih k _ _ (by omega) h h2
      · simp at h2
    all_goals simp at h2

theorem qline_ne_none (env : LSEnv α σ ρ) (p : LSParams α) (slope : α) (n fuel : Nat)
    (hn : n < fuel) (st : LSState α σ)
    (h : ∀ t' s0 r s, env.G t' s0 = (.ok r, s) →
      (qCurv (env.getF st.s) slope (env.getF s) (nthStep p.tTrial (lit 5) n) <ᶠ lit 0) = false) :
    qline env p fuel slope st ≠ none := by
  rw [qline, readF_bind, FM.bind_apply]
  have := qlineLoop_ne_none env (env.getF st.s) slope n fuel p.tTrial st hn h
  cases hb : qlineLoop env (env.getF st.s) slope fuel p.tTrial st with
  | none => exact absurd hb this
  | some q =>
    obtain ⟨b, stm⟩ := q
    cases b with
    | ok w =>
      intro h2
      rcases evalG_bind h2 with ⟨r, st1, he, h2⟩ | ⟨st1, e, he, h2⟩ | ⟨st1, he, h2⟩ | ⟨st1, he, h2⟩
      · rw [readF_bind] at h2
        split at h2
        · simp at h2
        · simp [setRestart_bind] at h2
      all_goals simp at h2
    | _ => simp

theorem lineSearch_ne_none (env : LSEnv α σ ρ) (p : LSParams α) (slope : α) (fuel : Nat)
    (st : LSState α σ) (hq : qline env p fuel slope st ≠ none)
    (hb : ∀ st', btSearch env p fuel (env.getF st.s) st' ≠ none) :
    lineSearch env p fuel slope st ≠ none := by
  rw [lineSearch]
  split
  · simp
  · rw [readF_bind, FM.bind_apply, FM.attempt]
    cases hh : qline env p fuel slope st with
    | none => exact absurd hh hq
    | some q =>
      obtain ⟨b, stm⟩ := q
      cases b with
      | throw e =>
        cases e
        case stepError => exact hb stm
        all_goals simp
      | _ => simp

/-- In exact arithmetic a backtracking sequence with `tau < 1` gets below the limit. -/
theorem exists_small_step (t tau : ℝ) (h : tau < 1) :
    ∃ n, (lit (1 / 10 ^ 8) <ᶠ nthStep t tau n) = false := by
  by_cases h0 : 0 < tau
  · by_cases ht : t ≤ 0
    · exact ⟨0, by simp [nthStep]; linarith⟩
    · push Not at ht
      obtain ⟨n, hn⟩ := exists_pow_lt_of_lt_one (show (0 : ℝ) < 1 / 10 ^ 8 / t by positivity) h
      refine ⟨n, ?_⟩
      rw [nthStep_real]
      have : t * tau ^ n < 1 / 10 ^ 8 := by
        rw [lt_div_iff₀ ht] at hn
        linarith
      simp only [real_lit, real_lt, decide_eq_false_iff_not]
      push_cast
      linarith
  · by_cases ht : t ≤ 0
    · exact ⟨0, by simp [nthStep]; linarith⟩
    · refine ⟨1, ?_⟩
      rw [nthStep_real]
      simp only [real_lit, real_lt, decide_eq_false_iff_not, pow_one]
      push_cast
      have : t * tau ≤ 0 := by nlinarith
      linarith

/-- Number of backtracking steps above the limit. -/
theorem geom_count_bound (t tau : ℝ) (h0 : 0 < tau) (h1 : tau < 1) (k : Nat)
    (h : ∀ x ∈ geomSteps t tau k, (lit (1 / 10 ^ 8) <ᶠ x) = true) (hk : k ≠ 0) :
    (k : ℝ) ≤ 1 + Real.log (t / (1 / 10 ^ 8)) / Real.log (1 / tau) := by
  obtain ⟨j, rfl⟩ : ∃ j, k = j + 1 := ⟨k - 1, by omega⟩
  rw [geomSteps_real] at h
  have hj := h (t * tau ^ j) (by simp only [List.mem_map, List.mem_range]; exact ⟨j, by omega, rfl⟩)
  simp only [real_lit, real_lt, decide_eq_true_eq] at hj
  push_cast at hj
  have hl : 0 < Real.log (1 / tau) := Real.log_pos (by rw [lt_div_iff₀ h0]; linarith)
  have ht : 0 < t := by
    by_contra hn
    push Not at hn
    have : t * tau ^ j ≤ 0 := mul_nonpos_of_nonpos_of_nonneg hn (by positivity)
    linarith
  have key : (1 / tau) ^ j ≤ t / (1 / 10 ^ 8) := by
    rw [le_div_iff₀ (by norm_num), one_div, inv_pow, inv_mul_le_iff₀ (by positivity)]
    linarith
  have := Real.log_le_log (by positivity) key
  rw [Real.log_pow] at this
  push_cast
  have h3 : (j : ℝ) ≤ Real.log (t / (1 / 10 ^ 8)) / Real.log (1 / tau) := by
    rw [le_div_iff₀ hl]; exact this
  linarith

theorem Ov.huge_eq : Ov.huge = 2 ^ 1024 := by unfold Ov.huge; rfl

theorem Ov.five_lt_huge : (5 : ℚ) < Ov.huge := by
  rw [Ov.huge_eq]
  calc (5 : ℚ) < 2 ^ 3 := by norm_num
    _ ≤ 2 ^ 1024 := pow_le_pow_right₀ (by norm_num) (by norm_num)

theorem Ov.norm_lt {q : ℚ} (h : |q| < Ov.huge) : Ov.norm q = .num q := by simp [Ov.norm, h]

theorem Ov.nthStep_five (q : ℚ) (n : Nat) (h0 : 0 < q) (h : q * 5 ^ n < Ov.huge) :
    nthStep (Ov.num q) (lit 5) n = .num (q * 5 ^ n) := by
  induction n generalizing q with
  | zero => simp [nthStep]
  | succ n ih =>
    have h5 : (lit 5 : Ov) = .num 5 := Ov.norm_lt (by simpa using Ov.five_lt_huge)
    have hle : q * 5 ≤ q * 5 ^ (n + 1) := by
      have : (5 : ℚ) ≤ 5 ^ (n + 1) := by
        calc (5 : ℚ) = 5 ^ 1 := by norm_num
          _ ≤ 5 ^ (n + 1) := pow_le_pow_right₀ (by norm_num) (by omega)
      nlinarith
    have hm : (Ov.num q : Ov) *ᶠ lit 5 = .num (q * 5) := by
      rw [h5]
      show Ov.mul (.num q) (.num 5) = _
      simp only [Ov.mul]
      apply Ov.norm_lt
      rw [abs_of_pos (by positivity)]
      linarith
    rw [nthStep, hm, ih (q * 5) (by positivity)]
    · congr 1; ring
    · calc q * 5 * 5 ^ n = q * 5 ^ (n + 1) := by ring
        _ < _ := h

end Nlcg
