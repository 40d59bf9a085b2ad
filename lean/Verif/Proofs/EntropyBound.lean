import Verif.Proofs.Smearing
import Verif.Proofs.GradEta

/-! The entropy functions are bounded. -/

namespace Nlcg
open Real

theorem entropy_bounded (t : SmearType) (mo : ℝ) : ∃ M, 0 ≤ M ∧ ∀ x, (smearFns t).entropy x mo ≤ M := by
  have hpi : (0 : ℝ) < √π := sqrtpi_pos
  have hs2 : (0 : ℝ) ≤ √2 := sqrt_nonneg 2
  cases t with
  | fermiDirac =>
    have hl : 0 ≤ log (1 + exp 40) := log_nonneg (by linarith [exp_pos 40])
    refine ⟨|mo| * (log (1 + exp 40) + 40), by positivity, fun x => ?_⟩
    show fdEntropy x mo ≤ _
    rw [fdEntropy]
    split_ifs with h
    · positivity
    · push Not at h
      obtain ⟨h1, h2⟩ := abs_le.1 h
      refine (le_abs_self _).trans ?_
      rw [abs_mul]
      refine mul_le_mul_of_nonneg_left ?_ (abs_nonneg _)
      have hx := exp_pos x
      have e1 : |exp x * x / (1 + exp x)| ≤ 40 := by
        rw [abs_div, abs_mul, abs_of_pos hx, abs_of_pos (by linarith : 0 < 1 + exp x),
          div_le_iff₀ (by linarith)]
        nlinarith
      have e2 : log (1 + exp x) ≤ log (1 + exp 40) :=
        log_le_log (by linarith) (by have := exp_le_exp.2 h2; linarith)
      have e3 : 0 ≤ log (1 + exp x) := log_nonneg (by linarith)
      refine (abs_sub _ _).trans ?_
      rw [abs_of_nonneg e3]
      linarith
  | gaussianSpline =>
    refine ⟨0.25 * (2 * 7 + exp 0.5 * √π * 2), by positivity, fun x => ?_⟩
    show gsEntropy x mo ≤ _
    have hc : ∀ y, erfc y ≤ 2 := fun y => by have := neg_one_lt_erf y; rw [erfc]; linarith
    have hep : 0 ≤ exp (0.5 : ℝ) * √π := by positivity
    rw [gsEntropy]
    split_ifs with h h0
    · positivity
    · push Not at h
      obtain ⟨h1, h2⟩ := abs_le.1 h
      have e1 : exp (-x * (√2 + x)) ≤ 1 := exp_le_one_iff.2 (by nlinarith)
      have e2 : exp (-x * (√2 + x)) * x ≤ 7 := by nlinarith [exp_pos (-x * (√2 + x))]
      have e3 := mul_le_mul_of_nonneg_left (hc (1 / √2 + x)) hep
      nlinarith
    · push Not at h h0
      obtain ⟨h1, h2⟩ := abs_le.1 h
      have e1 : exp (x * (√2 - x)) ≤ 1 := exp_le_one_iff.2 (by nlinarith)
      have e2 : exp (x * (√2 - x)) * (-x) ≤ 7 := by nlinarith [exp_pos (x * (√2 - x))]
      have e3 := mul_le_mul_of_nonneg_left (hc (1 / √2 - x)) hep
      nlinarith
  | gauss =>
    refine ⟨|mo| / 2 / √π, by positivity, fun x => ?_⟩
    show gaussEntropy x mo ≤ _
    rw [gaussEntropy]
    refine div_le_div_of_nonneg_right ?_ hpi.le
    have e1 : exp (-x * x) ≤ 1 := exp_le_one_iff.2 (by nlinarith [mul_self_nonneg x])
    have e2 : mo / 2 * exp (-x * x) ≤ |mo| / 2 * exp (-x * x) :=
      mul_le_mul_of_nonneg_right (by linarith [le_abs_self mo]) (exp_pos _).le
    nlinarith [abs_nonneg mo]
  | methfesselPaxton =>
    refine ⟨|mo| * 3 / 4 / √π, by positivity, fun x => ?_⟩
    show mpEntropy x mo ≤ _
    rw [mpEntropy]
    refine div_le_div_of_nonneg_right (div_le_div_of_nonneg_right ?_ (by norm_num)) hpi.le
    have e0 : x * x * exp (-(x * x)) ≤ 1 := by
      have := add_one_le_exp (x * x)
      rw [exp_neg, mul_inv_le_iff₀ (exp_pos _)]
      linarith
    have e1 : exp (-(x * x)) ≤ 1 := exp_le_one_iff.2 (by nlinarith)
    have e4 := exp_pos (-(x * x))
    have e2 : |exp (-(x * x)) * (1 - 2 * (x * x))| ≤ 3 := by
      rw [abs_le]; constructor <;> nlinarith [mul_self_nonneg x]
    rw [mul_assoc]
    refine (le_abs_self _).trans ?_
    rw [abs_mul]
    exact mul_le_mul_of_nonneg_left e2 (abs_nonneg _)
  | cold =>
    refine ⟨|mo| * (1 + √2 * 10) / 2 / √π, by positivity, fun x => ?_⟩
    show coldEntropy x mo ≤ _
    rw [coldEntropy]
    split_ifs with h h0
    · positivity
    · positivity
    · push Not at h h0
      refine div_le_div_of_nonneg_right (div_le_div_of_nonneg_right ?_ (by norm_num)) hpi.le
      rw [mul_assoc]
      refine (le_abs_self _).trans ?_
      rw [abs_mul]
      refine mul_le_mul_of_nonneg_left ?_ (abs_nonneg _)
      have e1 : exp (-(x - 1 / √2) * (x - 1 / √2)) ≤ 1 :=
        exp_le_one_iff.2 (by nlinarith [mul_self_nonneg (x - 1 / √2)])
      have e2 : |1 - √2 * x| ≤ 1 + √2 * 10 := by
        rw [abs_le]; constructor <;> nlinarith
      rw [abs_mul, abs_of_pos (exp_pos _)]
      nlinarith [abs_nonneg (1 - √2 * x)]

/-- so is the entropy term of the free energy, from below -/
theorem entropyTerm_bounded {K : ℕ} {b : Fin K → ℕ} (t : SmearType) (T mo : ℝ) (hT : 0 ≤ T)
    (w : Fin K → ℝ) (hw : ∀ k, 0 ≤ w k) : ∃ L, ∀ (mu : ℝ) (e : Bands b),
    L ≤ entropyTerm t T mo mu (List.ofFn fun k => (w k, List.ofFn (e k))) := by
  obtain ⟨M, hM0, hM⟩ := entropy_bounded t mo
  refine ⟨kB * T * (-1 * ∑ k, w k * (b k * M)), fun mu e => ?_⟩
  simp only [entropyTerm, smearingEntropy, sumFunc_real, List.map_ofFn, List.sum_ofFn,
    Function.comp_def]
  have hk : (0 : ℝ) ≤ kB * T := mul_nonneg (by rw [kB]; norm_num) hT
  refine mul_le_mul_of_nonneg_left ?_ hk
  rw [neg_one_mul, neg_one_mul, neg_le_neg_iff]
  refine Finset.sum_le_sum fun k _ => mul_le_mul_of_nonneg_left ?_ (hw k)
  calc _ ≤ ∑ _i : Fin (b k), M := Finset.sum_le_sum fun i _ => hM _
    _ = b k * M := by simp

end Nlcg
