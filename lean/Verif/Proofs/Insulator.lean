import Verif.Spec.Insulator
import Verif.Proofs.SearchOcc
import Verif.Props.Smearing
import Mathlib.Analysis.Real.Pi.Bounds
import Mathlib.Analysis.Complex.ExponentialBounds

/-! Tails of the smearing functions, and the occupations of insulators. -/

namespace Nlcg
open Spec Real Arith

/-- a function that decreases to zero is not negative -/
theorem nonneg_of_deriv_nonpos {h h' : ℝ → ℝ} {a x : ℝ} (hd : ∀ y, a ≤ y → HasDerivAt h (h' y) y)
    (hn : ∀ y, a ≤ y → h' y ≤ 0) (hl : Filter.Tendsto h Filter.atTop (nhds 0)) (hx : a ≤ x) : 0 ≤ h x := by
  have hanti : AntitoneOn h (Set.Ici a) := by
    apply antitoneOn_of_deriv_nonpos (convex_Ici _)
    · exact fun y hy => (hd y hy).continuousAt.continuousWithinAt
    · exact fun y hy => (hd y (interior_subset hy)).differentiableAt.differentiableWithinAt
    · intro y hy
      rw [(hd y (interior_subset hy)).deriv]
      exact hn y (interior_subset hy)
  refine le_of_tendsto hl ?_
  filter_upwards [Filter.eventually_ge_atTop x] with y hy
  exact hanti (Set.mem_Ici.2 hx) (Set.mem_Ici.2 (hx.trans hy)) hy

theorem tendsto_erfc : Filter.Tendsto erfc Filter.atTop (nhds 0) := by
  have := tendsto_erf_atTop.const_sub 1
  rw [sub_self] at this
  exact this

theorem exp_quarter_le : exp (1 / 4) ≤ √π := by
  rw [le_sqrt' (exp_pos _), ← exp_nat_mul]
  have h1 : exp ((2 : ℕ) * (1 / 4) : ℝ) ≤ exp 1 := exp_le_exp.2 (by norm_num)
  have := exp_one_lt_d9
  have := pi_gt_three
  linarith

/-- the tail of the error function -/
theorem erfc_le_exp {x : ℝ} : erfc x ≤ 2 * exp (-x) := by
  have h := nonneg_of_deriv_nonpos (a := x) (x := x) (h := fun y => 2 * exp (-y) - erfc y)
    (h' := fun y => 2 * (exp (-y) * (-1)) - -(2 / √π * exp (-y ^ 2)))
    (fun y _ => (((hasDerivAt_id y).neg.exp).const_mul 2).sub (hasDerivAt_erfc y)) (fun y _ => ?_) ?_ le_rfl
  · linarith
  · have h1 : exp (-y ^ 2) ≤ exp (1 / 4) * exp (-y) := by
      rw [← exp_add]
      exact exp_le_exp.2 (by nlinarith [sq_nonneg (y - 1 / 2)])
    have h2 : 1 / √π * exp (-y ^ 2) ≤ exp (-y) := by
      rw [one_div, inv_mul_le_iff₀ sqrtpi_pos]
      exact h1.trans (mul_le_mul_of_nonneg_right exp_quarter_le (exp_pos _).le)
    have h3 : 2 / √π * exp (-y ^ 2) = 2 * (1 / √π * exp (-y ^ 2)) := by ring
    rw [h3]
    linarith
  · have := (tendsto_exp_neg_atTop_nhds_zero.const_mul 2).sub tendsto_erfc
    simpa using this

/-- Mills' bound -/
theorem erfc_le_mills {x : ℝ} (hx : 0 < x) : erfc x ≤ exp (-x ^ 2) / (x * √π) := by
  have hp := sqrtpi_pos
  have h := nonneg_of_deriv_nonpos (a := x) (x := x) (h := fun y => exp (-y ^ 2) / (y * √π) - erfc y)
    (h' := fun y => -(exp (-y ^ 2) / (y ^ 2 * √π))) (fun y hy => ?_) (fun y _ => ?_) ?_ le_rfl
  · linarith
  · have hy0 : 0 < y := hx.trans_le hy
    have h1 : HasDerivAt (fun y : ℝ => exp (-y ^ 2)) (exp (-y ^ 2) * -(2 * y)) y := by
      have := ((hasDerivAt_pow 2 y).neg).exp
      simpa using this
    have h2 := (h1.div ((hasDerivAt_id y).mul_const √π) (by simp [hy0.ne', hp.ne'])).sub (hasDerivAt_erfc y)
    refine h2.congr_deriv ?_
    simp only [id]
    field_simp
    ring
  · rw [neg_nonpos]
    positivity
  · have h1 : Filter.Tendsto (fun y : ℝ => exp (-y ^ 2) / (y * √π)) Filter.atTop (nhds 0) := by
      refine squeeze_zero' (g := fun y => exp (-y)) ?_ ?_ tendsto_exp_neg_atTop_nhds_zero
      · filter_upwards [Filter.eventually_gt_atTop 0] with y hy
        positivity
      · filter_upwards [Filter.eventually_ge_atTop 1] with y hy
        have hs : 1 ≤ √π := by
          rw [le_sqrt' one_pos]
          have := pi_gt_three
          linarith
        refine (div_le_self (exp_pos _).le (by nlinarith)).trans (exp_le_exp.2 (by nlinarith))
    simpa using h1.sub tendsto_erfc

/-- occupations of a monotone smearing function far from the chemical potential -/
theorem tails {t : SmearType} (ht : Monotonic t) {mo x : ℝ} (hmo : 0 ≤ mo) (hx : 0 ≤ x) :
    (smearFns t).fn (-x) mo ≤ mo * exp (-x) ∧ mo - (smearFns t).fn x mo ≤ mo * exp (-x) := by
  have he := exp_pos x
  have he' := exp_pos (-x)
  have hb := mul_nonneg hmo he'.le
  cases t with
  | fermiDirac =>
    have h1 : mo / (1 + exp x) ≤ mo * exp (-x) := by
      rw [exp_neg, ← div_eq_mul_inv]
      exact div_le_div_of_nonneg_left hmo he (by linarith)
    constructor
    · show fdFn (-x) mo ≤ _
      unfold fdFn
      split_ifs with h2 h3
      · exact hb
      · linarith
      · have : mo - mo / (1 + exp (-x)) = mo / (1 + exp x) := by
          rw [exp_neg]
          field_simp
          ring
        rw [this]
        exact h1
    · show mo - fdFn x mo ≤ _
      unfold fdFn
      split_ifs with h2 h3
      · linarith
      · simpa using hb
      · simpa using h1
  | gaussianSpline =>
    have hs : 1 ≤ √(2 : ℝ) := by rw [le_sqrt' one_pos]; norm_num
    have h1 : mo / 2 * exp (-(x * (√2 + x))) ≤ mo * exp (-x) := by
      have : exp (-(x * (√2 + x))) ≤ exp (-x) := exp_le_exp.2 (by nlinarith)
      nlinarith
    constructor
    · show gsFn (-x) mo ≤ _
      unfold gsFn
      split_ifs with h2 h3 h4
      · linarith
      · exact hb
      · have : -x * (√2 - -x) = -(x * (√2 + x)) := by ring
        rw [this]
        exact h1
      · linarith
    · show mo - gsFn x mo ≤ _
      unfold gsFn
      split_ifs with h2 h3 h4
      · simpa using hb
      · linarith
      · have : x = 0 := le_antisymm h4 hx
        subst this
        simp
        linarith
      · have : -x * (√2 + x) = -(x * (√2 + x)) := by ring
        rw [this]
        linarith
  | gauss =>
    have h1 := erfc_le_exp (x := x)
    unfold erfc at h1
    constructor
    · show gaussFn (-x) mo ≤ _
      rw [gaussFn, erf_neg]
      nlinarith
    · show mo - gaussFn x mo ≤ _
      rw [gaussFn]
      nlinarith
  | methfesselPaxton => exact ht.elim
  | cold => exact ht.elim

theorem half_filled {t : SmearType} (ht : Monotonic t) (mo : ℝ) : (smearFns t).fn 0 mo = mo / 2 := by
  have h := C13_particle_hole_partial t (by rintro rfl; exact ht) 0 mo (fun _ => .inl (by norm_num))
  rw [neg_zero] at h
  linarith

variable {K : ℕ} {b : Fin K → ℕ}

/-- what the bracketing search accepts -/
theorem searchOcc_charge {t : SmearType} {p : OccParams ℝ} {key : Fin K → Key} (hk : Function.Injective key)
    {wk : Fin K → ℝ} {ek : Bands b} {mu : ℝ} {f : Bands b} (h : searchOcc false t p key wk ek = .ok (mu, f)) :
    |p.ne - ∑ k, wk k * ∑ i, f k i| < p.tol ∧ ∀ k i, f k i = (smearFns t).fn ((mu - ek k i) / (kB * p.T)) p.occ := by
  obtain ⟨h1, h2⟩ := searchOcc_ok h
  subst h2
  refine ⟨?_, fun k i => rfl⟩
  simp only [globalSearch, Bool.false_eq_true, if_false, chemPotGathered] at h1
  rcases findChemPotRun_cases (f := fun mu => p.ne -ᶠ kSum id (smearFns t).fn
    (KMap.ofRange (oneRank key wk ek).energies.flatten) (KMap.ofRange (oneRank key wk ek).weights.flatten) p.T p.occ mu)
    (mu0 := lit 0) (tol := p.tol) with ⟨m, h3, h4⟩ | h3
  · rw [h3] at h1
    cases h1
    simp only [real_lt, real_abs, real_sub, decide_eq_true_eq] at h4
    rw [kSum_oneRank id _ hk] at h4
    simp only [List.map_ofFn, List.sum_ofFn, Function.comp_def, id] at h4
    exact h4
  · rw [h3] at h1
    cases h1

end Nlcg
