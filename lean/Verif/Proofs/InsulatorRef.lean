import Verif.Proofs.Insulator
import Verif.Props.ChemPot

/-! An insulator whose occupations are wrong with Methfessel-Paxton and cold smearing. -/

namespace Nlcg
open Spec Real Arith

theorem exp_neg_small {x : ℝ} (hx : 100 ≤ x) : exp (-x) ≤ 1 / 10 ^ 30 := by
  have h1 : exp (-1) ≤ 1 / 2 := by
    rw [exp_neg, one_div]
    exact inv_anti₀ two_pos (by linarith [exp_one_gt_d9])
  calc exp (-x) ≤ exp (-100) := exp_le_exp.2 (by linarith)
    _ = exp (-1) ^ 100 := by rw [← exp_nat_mul]; norm_num
    _ ≤ (1 / 2) ^ 100 := pow_le_pow_left₀ (exp_pos _).le h1 _
    _ ≤ 1 / 10 ^ 30 := by norm_num

/-! ## The values of the two smearing functions -/

theorem one_le_sqrtpi : 1 ≤ √π := by
  rw [le_sqrt' one_pos]
  linarith [pi_gt_three]

theorem sqrtpi_le_two : √π ≤ 2 := by
  rw [sqrt_le_left two_pos.le]
  linarith [pi_lt_four]

/-- `e^{-x^2} q` is small far out, for quadratic polynomials `q` -/
theorem gaussian_small {x q : ℝ} (hx : 100 ≤ |x|) (hq : |q| ≤ 20 * (1 + x ^ 2 / 2)) : |exp (-x ^ 2) * q| ≤ 1 / 10 ^ 25 := by
  have h1 : 1 + x ^ 2 / 2 ≤ exp (x ^ 2 / 2) := by linarith [add_one_le_exp (x ^ 2 / 2)]
  have h2 : exp (-x ^ 2) * exp (x ^ 2 / 2) = exp (-(x ^ 2 / 2)) := by rw [← exp_add]; congr 1; ring
  have h3 : 100 ≤ x ^ 2 / 2 := by nlinarith [sq_abs x]
  rw [abs_mul, abs_of_pos (exp_pos _)]
  calc exp (-x ^ 2) * |q| ≤ exp (-x ^ 2) * (20 * exp (x ^ 2 / 2)) :=
        mul_le_mul_of_nonneg_left (hq.trans (by linarith)) (exp_pos _).le
    _ = 20 * exp (-(x ^ 2 / 2)) := by rw [← h2]; ring
    _ ≤ 20 * (1 / 10 ^ 30) := by linarith [exp_neg_small h3]
    _ ≤ 1 / 10 ^ 25 := by norm_num

/-- the smearing functions far from the chemical potential and at `2 kT` -/
structure Overfills (sf : SmearFns ℝ) (y : ℝ) : Prop where
  range : 1 ≤ y ∧ y ≤ 10
  fnFar : ∀ x, 100 ≤ |x| → |sf.fn x 2| ≤ 3
  fnLow : ∀ x, x ≤ -100 → |sf.fn x 2| ≤ 1 / 10 ^ 20
  delta : ∀ x, 100 ≤ |x| → |sf.delta x 2| ≤ 1 / 10 ^ 20
  dxdelta : ∀ x, 100 ≤ |x| → |sf.dxdelta x 2| ≤ 1 / 10 ^ 20
  above : 2 + 1 / 90 ≤ sf.fn 2 2 ∧ sf.fn 2 2 ≤ 3
  below : sf.fn (-y) 2 ≤ 0 ∧ -1 ≤ sf.fn (-y) 2

theorem cold_overfills : Overfills (smearFns .cold) 9 where
  range := by norm_num
  fnFar x hx := by
    show |coldFn x 2| ≤ 3
    rcases le_abs.1 hx with h | h
    · rw [coldFn, if_pos (by linarith)]; norm_num
    · rw [coldFn, if_neg (by linarith), if_pos (by linarith)]; norm_num
  fnLow x hx := by
    show |coldFn x 2| ≤ _
    rw [coldFn, if_neg (by linarith), if_pos (by linarith)]; norm_num
  delta x hx := by
    show |coldDelta x 2| ≤ _
    rcases le_abs.1 hx with h | h
    · rw [coldDelta, if_neg (by linarith), if_pos (by linarith)]; norm_num
    · rw [coldDelta, if_pos (by linarith)]; norm_num
  dxdelta x hx := by
    show |coldDxdelta x 2| ≤ _
    rcases le_abs.1 hx with h | h
    · rw [coldDxdelta, if_neg (by linarith), if_pos (by linarith)]; norm_num
    · rw [coldDxdelta, if_pos (by linarith)]; norm_num
  above := by
    show 2 + 1 / 90 ≤ coldFn 2 2 ∧ coldFn 2 2 ≤ 3
    rw [coldFn, if_neg (by norm_num), if_neg (by norm_num)]
    have hs2 := sqrt2_sq
    have hs0 : 0 < √(2 : ℝ) := by positivity
    have hs1 : 1.4 ≤ √(2 : ℝ) := by rw [le_sqrt' (by norm_num)]; norm_num
    have hs3 : √(2 : ℝ) ≤ 1.5 := by rw [sqrt_le_left (by norm_num)]; norm_num
    have hinv : 1 / √(2 : ℝ) = √2 / 2 := by field_simp; linarith
    set z : ℝ := 2 - 1 / √2 with hz
    have hz1 : 1.25 ≤ z := by rw [hz, hinv]; linarith
    have hz2 : z ≤ 1.3 := by rw [hz, hinv]; linarith
    have he : exp (-0.5 + (√2 - 2) * 2) = exp (-z ^ 2) := by
      congr 1
      rw [hz, hinv]
      nlinarith
    have herfc : erfc (1 / √2 - 2) = 2 - erfc z := by
      rw [show 1 / √2 - 2 = -z by rw [hz]; ring, erfc, erfc, erf_neg]
      ring
    rw [he, herfc]
    have hm := erfc_le_mills (x := z) (by linarith)
    have hep := erfc_pos z
    have hp := sqrtpi_pos
    have hp1 := one_le_sqrtpi
    have hp2 := sqrtpi_le_two
    have hE : 0 < exp (-z ^ 2) := exp_pos _
    have hE1 : exp (-z ^ 2) ≤ 1 / 2 := by
      have h1 : exp (-z ^ 2) ≤ exp (-1) := exp_le_exp.2 (by nlinarith)
      have h2 : exp (-1) ≤ 1 / 2 := by
        rw [exp_neg, one_div]
        exact inv_anti₀ two_pos (by linarith [exp_one_gt_d9])
      exact h1.trans h2
    have hE2 : 1 / 9 ≤ exp (-z ^ 2) := by
      have h1 : exp (-2) ≤ exp (-z ^ 2) := exp_le_exp.2 (by nlinarith)
      have h2 : (1 : ℝ) / 9 ≤ exp (-2) := by
        rw [exp_neg, one_div]
        refine inv_anti₀ (exp_pos _) ?_
        have h3 : exp 2 = exp 1 * exp 1 := by rw [← exp_add]; norm_num
        have h4 := exp_one_lt_d9
        have h5 := exp_pos 1
        rw [h3]
        nlinarith
      linarith
    set Q := exp (-z ^ 2) / √π with hQ
    have hQ1 : 1 / 18 ≤ Q := by
      rw [hQ, le_div_iff₀ hp]
      linarith
    have hQ2 : Q ≤ 1 / 2 := by
      rw [hQ, div_le_iff₀ hp]
      linarith
    have h1 : exp (-z ^ 2) / √2 / √π = Q * (√2 / 2) := by
      rw [hQ, ← hinv]
      field_simp
    have h2 : exp (-z ^ 2) / (z * √π) = Q / z := by
      rw [hQ]
      field_simp
    rw [h2] at hm
    have h3 : Q / z ≤ Q * 0.8 := by
      rw [div_le_iff₀ (by linarith)]
      nlinarith
    rw [h1]
    norm_num at *
    constructor
    · nlinarith
    · nlinarith
  below := by
    show coldFn (-9) 2 ≤ 0 ∧ -1 ≤ coldFn (-9) 2
    rw [coldFn, if_neg (by norm_num), if_pos (by norm_num)]
    norm_num

theorem mp_two (x : ℝ) : mpFn x 2 = 2 + (exp (-x ^ 2) * x / √π - erfc x) := by
  rw [mpFn, erfc]
  rw [show x * x = x ^ 2 by ring]
  ring

theorem mp_neg (x : ℝ) : mpFn (-x) 2 = 2 - mpFn x 2 := by
  rw [mpFn, mpFn, erf_neg]
  simp only [neg_mul_neg]
  ring

/-- far above the chemical potential -/
theorem mp_far {x : ℝ} (hx : 100 ≤ x) : |mpFn x 2 - 2| ≤ 1 / 10 ^ 20 := by
  rw [mp_two, add_sub_cancel_left]
  have hp := one_le_sqrtpi
  have h1 := gaussian_small (x := x) (q := x) (le_abs.2 (.inl hx)) (by
    rw [abs_of_nonneg (by linarith)]; nlinarith)
  have h2 := erfc_le_exp (x := x)
  have h3 := exp_neg_small hx
  have h4 := erfc_pos x
  rw [abs_of_nonneg (by positivity)] at h1
  have h5 : exp (-x ^ 2) * x / √π ≤ exp (-x ^ 2) * x := div_le_self (by positivity) hp
  have h6 : 0 ≤ exp (-x ^ 2) * x / √π := by positivity
  rw [abs_le]
  constructor
  · have : (2 : ℝ) * (1 / 10 ^ 30) ≤ 1 / 10 ^ 20 := by norm_num
    linarith
  · have : (1 : ℝ) / 10 ^ 25 ≤ 1 / 10 ^ 20 := by norm_num
    linarith

theorem mp_overfills : Overfills (smearFns .methfesselPaxton) 2 := by
  have hp := one_le_sqrtpi
  have hp0 := sqrtpi_pos
  have hlow : ∀ x, x ≤ -100 → |mpFn x 2| ≤ 1 / 10 ^ 20 := by
    intro x hx
    have h := mp_far (x := -x) (by linarith)
    rw [mp_neg] at h
    have e : |2 - mpFn x 2 - 2| = |mpFn x 2| := by rw [← abs_neg]; congr 1; ring
    rwa [e] at h
  have habove : 2 + 1 / 90 ≤ mpFn 2 2 ∧ mpFn 2 2 ≤ 3 := by
    have hm := erfc_le_mills (x := 2) two_pos
    have hep := erfc_pos 2
    have hE2 : 1 / 64 ≤ exp (-(2 : ℝ) ^ 2) := by
      rw [exp_neg, one_div]
      refine inv_anti₀ (exp_pos _) ?_
      have h3 : exp ((2 : ℝ) ^ 2) = exp 1 ^ 4 := by rw [← exp_nat_mul]; norm_num
      have h4 := exp_one_lt_d9
      have h5 := exp_pos 1
      rw [h3]
      calc exp 1 ^ 4 ≤ 2.72 ^ 4 := pow_le_pow_left₀ h5.le (by linarith) 4
        _ ≤ 64 := by norm_num
    have hE1 : exp (-(2 : ℝ) ^ 2) ≤ 1 / 2 := by
      have : exp (-(2 : ℝ) ^ 2) ≤ exp (-1) := exp_le_exp.2 (by norm_num)
      have h1 : exp (-1) ≤ 1 / 2 := by
        rw [exp_neg, one_div]
        exact inv_anti₀ two_pos (by linarith [exp_one_gt_d9])
      exact this.trans h1
    have hp2 : √π ≤ 1.8 := by
      rw [sqrt_le_left (by norm_num)]
      linarith [pi_lt_d2]
    set Q := exp (-(2 : ℝ) ^ 2) / √π with hQ
    have hQ1 : 1 / 64 / 1.8 ≤ Q := by
      rw [hQ]
      exact div_le_div₀ (exp_pos _).le hE2 hp0 hp2
    have hQ2 : Q ≤ 1 / 2 := by
      rw [hQ, div_le_iff₀ hp0]
      nlinarith
    have h2 : exp (-(2 : ℝ) ^ 2) / (2 * √π) = Q / 2 := by
      rw [hQ]
      field_simp
    have h1 : exp (-(2 : ℝ) ^ 2) * 2 / √π = Q * 2 := by
      rw [hQ]
      ring
    rw [h2] at hm
    rw [mp_two, h1]
    constructor
    · norm_num at hQ1 ⊢
      linarith
    · linarith
  exact
  { range := by norm_num
    fnFar := fun x hx => by
      show |mpFn x 2| ≤ 3
      rcases le_abs.1 hx with h | h
      · have := abs_le.1 (mp_far h)
        have e : (1 : ℝ) / 10 ^ 20 ≤ 1 := by norm_num
        rw [abs_le]
        constructor <;> linarith [this.1, this.2]
      · refine (hlow x (by linarith)).trans (by norm_num)
    fnLow := hlow
    delta := fun x hx => by
      show |mpDelta x 2| ≤ _
      have h := gaussian_small (x := x) (q := 2 * (1 + 0.25 * (2 - 4 * x ^ 2))) hx (by
        rw [abs_le]
        constructor <;> nlinarith [sq_nonneg x])
      have e : mpDelta x 2 = exp (-x ^ 2) * (2 * (1 + 0.25 * (2 - 4 * x ^ 2))) / √π := by
        rw [mpDelta]
        rw [show x * x = x ^ 2 by ring]
        ring
      rw [e, abs_div, abs_of_pos hp0]
      exact (div_le_self (abs_nonneg _) hp).trans (h.trans (by norm_num))
    dxdelta := fun x hx => by
      show |mpDxdelta x 2| ≤ _
      have h := gaussian_small (x := x) (q := 2 * (2 * x ^ 2 - 5)) hx (by
        rw [abs_le]
        constructor <;> nlinarith [sq_nonneg x])
      have e : mpDxdelta x 2 = exp (-x ^ 2) * (2 * (2 * x ^ 2 - 5)) / √π := by
        rw [mpDxdelta, show -x * x = -x ^ 2 by ring]
        ring
      rw [e, abs_div, abs_of_pos hp0]
      exact (div_le_self (abs_nonneg _) hp).trans (h.trans (by norm_num))
    above := habove
    below := by
      show mpFn (-2) 2 ≤ 0 ∧ -1 ≤ mpFn (-2) 2
      rw [mp_neg]
      constructor <;> linarith [habove.1, habove.2] }

/-! ## The search -/

/-- the first step of the bracketing search leads to 1/8 -/
theorem findChemPotRun_eighth {f : ℝ → ℝ} {tol : ℝ} (h0 : tol < f 0) (ht : 0 < tol) (h1 : |f (1 / 8)| < tol) :
    findChemPotRun f (lit 0) tol = .ok (1 / 8) := by
  have hi : cpInit (lit 0 : ℝ) = { mu := 0, de := 1 / 10, sp := 1, s := 1, counter := 0 } := by
    simp [cpInit]
  have hg : cpGuard f tol (cpInit (lit 0)) = true := by
    rw [hi]
    simp only [cpGuard, real_lt, real_abs, cpNmax]
    rw [abs_of_pos (ht.trans h0)]
    simp [h0]
  have hb : cpBody f (cpInit (lit 0)) = { mu := 1 / 8, de := 1 / 8, sp := 1, s := 1, counter := 1 } := by
    rw [hi]
    simp only [cpBody, real_lt, real_lit, real_mul, real_add]
    have : ((0 : ℚ) : ℝ) < f 0 := by push_cast; exact ht.trans h0
    simp only [this, decide_true, if_true]
    norm_num
  have hg' : cpGuard f tol { mu := 1 / 8, de := 1 / 8, sp := 1, s := 1, counter := 1 } = false := by
    simp only [cpGuard, real_lt, real_abs, h1.not_gt, decide_false, Bool.false_and]
  have hw : whileFuel (cpGuard f tol) (cpBody f) (cpNmax + 1) (cpInit (lit 0))
      = some { mu := 1 / 8, de := 1 / 8, sp := 1, s := 1, counter := 1 } := by
    show whileFuel _ _ (1000 + 1) _ = _
    rw [whileFuel, hg, if_pos rfl, hb]
    show whileFuel _ _ (999 + 1) _ = _
    rw [whileFuel, hg']
    rfl
  have hf : cpFinish f tol { mu := 1 / 8, de := 1 / 8, sp := 1, s := 1, counter := 1 } = .ok (1 / 8) := by
    simp only [cpFinish, real_lt, real_abs, h1, decide_true, if_true]
  simp only [findChemPotRun, findChemPot, hw, Option.map_some, hf]

theorem findChemPotRun_zero {f : ℝ → ℝ} {tol : ℝ} (h0 : f (lit 0) = 0) (ht : 0 < tol) :
    findChemPotRun f (lit 0) tol = .ok 0 := by
  rw [C02_good_start_kept f (lit 0) tol (by rw [h0]; simp [ht.le]) (by rw [h0]; simp [ht])]
  simp

/-- Newton gives up where the count is flat -/
theorem newtonRun_flat {N dN ddN : ℝ → ℝ} {mu0 ne tol : ℝ}
    (h : |2 * dN mu0 * dN mu0 + 2 * (N mu0 - ne) * ddN mu0| < 1 / 10000000000) :
    newtonRun N dN ddN mu0 ne tol = .throw .failedToConverge := by
  have hb : newtonBody N dN ddN ne tol 1000 { mu := mu0, iter := 0 } = .inl (.throw .failedToConverge) := by
    simp only [newtonBody, real_lt, real_abs, real_lit, real_mul, real_add, real_sub]
    rw [if_pos]
    push_cast
    exact decide_eq_true h
  rw [newtonRun, newton, newtonLoop, hb]

/-- the temperature at which `kT` is a thousandth of a Hartree, two electrons -/
noncomputable def wideP : OccParams ℝ := { T := 1 / (1000 * (kB : ℚ)), occ := 2, ne := 2, tol := 1 / 10 ^ 11 }

theorem wideP_kT : ((kB : ℚ) : ℝ) * wideP.T = 1 / 1000 := by
  have := kB_pos.ne'
  simp only [wideP]
  field_simp

/-- Two bands at two k-points: one full, one empty at `E`. -/
noncomputable def wideBands (y E : ℝ) : Bands fun _ : Fin 2 => 2 := ![![-2 / 1000, E], ![y / 1000, E]]

/-- the same with all energies lower by `c` -/
noncomputable def wideShift (y E c : ℝ) : Bands fun _ : Fin 2 => 2 := fun k i => wideBands y E k i - c

theorem wideShift_zero (y E : ℝ) : wideShift y E 0 = wideBands y E := by
  funext k i
  simp [wideShift]

/-- the keys of the two k-points -/
def wideKey (k : Fin 2) : Key := toLex ((k : ℤ), 0)

theorem wideKey_inj : Function.Injective wideKey := fun a b h => by simpa [wideKey, Fin.ext_iff] using h

theorem kSum_wide (g : ℝ → ℝ) (func : ℝ → ℝ → ℝ) (w : Fin 2 → ℝ) (y E c mu : ℝ) :
    kSum g func (KMap.ofRange (oneRank wideKey w (wideShift y E c)).energies.flatten)
      (KMap.ofRange (oneRank wideKey w (wideShift y E c)).weights.flatten) wideP.T wideP.occ mu
      = g (w 0) * (func (1000 * (mu + c) + 2) 2 + func (1000 * (mu + c - E)) 2)
        + g (w 1) * (func (1000 * (mu + c) - y) 2 + func (1000 * (mu + c - E)) 2) := by
  rw [kSum_oneRank g func wideKey_inj, Fin.sum_univ_two, wideP_kT]
  have ho : wideP.occ = 2 := rfl
  simp only [List.map_ofFn, List.sum_ofFn, Function.comp_def, Fin.sum_univ_two, ho, wideShift, wideBands]
  have e1 : ∀ a : ℝ, (mu - a) / (1 / 1000) = 1000 * (mu - a) := fun a => by ring
  simp only [e1]
  simp only [Matrix.cons_val_zero, Matrix.cons_val_one]
  rw [show 1000 * (mu - (-2 / 1000 - c)) = 1000 * (mu + c) + 2 by ring,
    show 1000 * (mu - (y / 1000 - c)) = 1000 * (mu + c) - y by ring, show 1000 * (mu - (E - c)) = 1000 * (mu + c - E) by ring]

/-- weights for which the count is right at chemical potential zero -/
noncomputable def wideWeights (sf : SmearFns ℝ) (y E : ℝ) : Fin 2 → ℝ :=
  ![(2 - sf.fn (-y) 2 - sf.fn (-(1000 * E)) 2) / (sf.fn 2 2 - sf.fn (-y) 2),
    (sf.fn 2 2 + sf.fn (-(1000 * E)) 2 - 2) / (sf.fn 2 2 - sf.fn (-y) 2)]

variable {sf : SmearFns ℝ} {y E : ℝ}

theorem wideWeights_ok (h : Overfills sf y) (hE : 1 ≤ E) :
    0 < wideWeights sf y E 0 ∧ 1 / 400 ≤ wideWeights sf y E 1 ∧ wideWeights sf y E 0 + wideWeights sf y E 1 = 1 ∧
    wideWeights sf y E 0 * (sf.fn 2 2 + sf.fn (-(1000 * E)) 2)
      + wideWeights sf y E 1 * (sf.fn (-y) 2 + sf.fn (-(1000 * E)) 2) = 2 := by
  have h1 := abs_le.1 (h.fnLow (-(1000 * E)) (by linarith))
  obtain ⟨h2, h3⟩ := h.above
  obtain ⟨h4, h5⟩ := h.below
  have e : (1 : ℝ) / 10 ^ 20 ≤ 1 / 1000 := by norm_num
  have hD : 0 < sf.fn 2 2 - sf.fn (-y) 2 := by linarith
  simp only [wideWeights, Matrix.cons_val_zero, Matrix.cons_val_one]
  refine ⟨div_pos (by linarith [h1.2]) hD, ?_, ?_, ?_⟩
  · rw [le_div_iff₀ hD]
    linarith [h1.1]
  · field_simp
    ring
  · field_simp
    ring

theorem gauss_bounds (x : ℝ) : 0 ≤ gaussFn x 2 ∧ gaussFn x 2 ≤ 2 := ⟨gaussFn_nonneg x two_pos.le, gaussFn_le x two_pos.le⟩

theorem gauss_far {x : ℝ} (hx : 100 ≤ x) : gaussFn (-x) 2 ≤ 1 / 10 ^ 20 ∧ 2 - gaussFn x 2 ≤ 1 / 10 ^ 20 := by
  have h := tails (t := .gauss) trivial (mo := 2) two_pos.le (x := x) (by linarith)
  have h1 := exp_neg_small hx
  have e : (2 : ℝ) * (1 / 10 ^ 30) ≤ 1 / 10 ^ 20 := by norm_num
  exact ⟨h.1.trans (by linarith), h.2.trans (by linarith)⟩

/-- Newton is of no use for these bands: with and without it, the result is that of the bracketing search -/
theorem wide_bracket (useNewton : Bool) (h : Overfills sf y) (hE : 1 ≤ E) {c : ℝ} (hc0 : 0 ≤ c) (hc1 : c ≤ 1 / 2000) :
    globalSearch useNewton (smearFns .gauss) sf wideP (oneRank wideKey (wideWeights sf y E) (wideShift y E c)) =
      findChemPotRun (fun mu => 2 - (wideWeights sf y E 0 * (sf.fn (1000 * (mu + c) + 2) 2 + sf.fn (1000 * (mu + c - E)) 2)
        + wideWeights sf y E 1 * (sf.fn (1000 * (mu + c) - y) 2 + sf.fn (1000 * (mu + c - E)) 2))) (lit 0) (1 / 10 ^ 11) := by
  obtain ⟨hw0, hw1, hw, hN⟩ := wideWeights_ok h hE
  set w := wideWeights sf y E with hwd
  have htol : wideP.tol = 1 / 10 ^ 11 := rfl
  have hne : wideP.ne = 2 := rfl
  have hbr : findChemPotRun (fun mu => wideP.ne -ᶠ kSum id sf.fn
      (KMap.ofRange (oneRank wideKey w (wideShift y E c)).energies.flatten)
      (KMap.ofRange (oneRank wideKey w (wideShift y E c)).weights.flatten) wideP.T wideP.occ mu) (lit 0) wideP.tol =
      findChemPotRun (fun mu => 2 - (w 0 * (sf.fn (1000 * (mu + c) + 2) 2 + sf.fn (1000 * (mu + c - E)) 2)
        + w 1 * (sf.fn (1000 * (mu + c) - y) 2 + sf.fn (1000 * (mu + c - E)) 2))) (lit 0) (1 / 10 ^ 11) := by
    have h0 : ∀ mu, kSum id sf.fn (KMap.ofRange (oneRank wideKey w (wideShift y E c)).energies.flatten)
        (KMap.ofRange (oneRank wideKey w (wideShift y E c)).weights.flatten) wideP.T wideP.occ mu = _ :=
      fun mu => kSum_wide id sf.fn w y E c mu
    simp only [h0, id, real_sub, hne, htol]
  cases useNewton with
  | false =>
    simp only [globalSearch, Bool.false_eq_true, if_false, chemPotGathered]
    exact hbr
  | true =>
    simp only [globalSearch, if_true, chemPotGatheredNewton]
    obtain ⟨hy0, hy1⟩ := h.range
    have hgauss : findChemPotRun (fun mu => wideP.ne -ᶠ kSum id (smearFns .gauss).fn
        (KMap.ofRange (oneRank wideKey w (wideShift y E c)).energies.flatten)
        (KMap.ofRange (oneRank wideKey w (wideShift y E c)).weights.flatten) wideP.T wideP.occ mu) (lit 0) wideP.tol
        = .ok (1 / 8) := by
      refine findChemPotRun_eighth ?_ (by rw [htol]; norm_num) ?_
      · rw [kSum_wide, real_sub, hne, htol]
        show _ < 2 - (w 0 * (gaussFn (1000 * (0 + c) + 2) 2 + gaussFn (1000 * (0 + c - E)) 2)
          + w 1 * (gaussFn (1000 * (0 + c) - y) 2 + gaussFn (1000 * (0 + c - E)) 2))
        have h1 := (gauss_bounds (1000 * (0 + c) + 2)).2
        have h2 : gaussFn (1000 * (0 + c) - y) 2 ≤ 1 := by
          have h3 : gaussFn (1000 * (0 + c) - y) 2 ≤ gaussFn 0 2 := gaussFn_mono two_pos.le (by linarith)
          have h4 : gaussFn 0 2 = 1 := by rw [gaussFn, erf_zero]; norm_num
          exact h3.trans h4.le
        have h3 := (gauss_far (x := 1000 * (E - c)) (by linarith)).1
        rw [show -(1000 * (E - c)) = 1000 * (0 + c - E) by ring] at h3
        generalize gaussFn (1000 * (0 + c) + 2) 2 = A at *
        generalize gaussFn (1000 * (0 + c) - y) 2 = B at *
        generalize gaussFn (1000 * (0 + c - E)) 2 = C at *
        have e1 := mul_le_mul_of_nonneg_left h1 hw0.le
        have e2 := mul_le_mul_of_nonneg_left h2 (by linarith : 0 ≤ w 1)
        have e3 : (w 0 + w 1) * C ≤ 1 / 10 ^ 20 := by rw [hw, one_mul]; exact h3
        have e4 : (1 : ℝ) / 10 ^ 11 + 1 / 10 ^ 20 < 1 / 400 := by norm_num
        have e5 : w 0 * (A + C) + w 1 * (B + C) = w 0 * A + w 1 * B + (w 0 + w 1) * C := by ring
        rw [e5]
        linarith
      · rw [kSum_wide, real_sub, hne, htol]
        show |2 - (w 0 * (gaussFn (1000 * (1 / 8 + c) + 2) 2 + gaussFn (1000 * (1 / 8 + c - E)) 2)
          + w 1 * (gaussFn (1000 * (1 / 8 + c) - y) 2 + gaussFn (1000 * (1 / 8 + c - E)) 2))| < _
        have b1 := (gauss_bounds (1000 * (1 / 8 + c) + 2)).2
        have b2 := (gauss_bounds (1000 * (1 / 8 + c) - y)).2
        have b3 := (gauss_bounds (1000 * (1 / 8 + c - E))).1
        have h1 := (gauss_far (x := 1000 * (1 / 8 + c) + 2) (by linarith)).2
        have h2 := (gauss_far (x := 1000 * (1 / 8 + c) - y) (by linarith)).2
        have h3 := (gauss_far (x := 1000 * (E - 1 / 8 - c)) (by linarith)).1
        rw [show -(1000 * (E - 1 / 8 - c)) = 1000 * (1 / 8 + c - E) by ring] at h3
        generalize gaussFn (1000 * (1 / 8 + c) + 2) 2 = A at *
        generalize gaussFn (1000 * (1 / 8 + c) - y) 2 = B at *
        generalize gaussFn (1000 * (1 / 8 + c - E)) 2 = C at *
        have e : 2 - (w 0 * (A + C) + w 1 * (B + C)) = w 0 * (2 - A) + w 1 * (2 - B) - (w 0 + w 1) * C
          + 2 * (1 - (w 0 + w 1)) := by ring
        rw [e, hw, one_mul, sub_self, mul_zero, add_zero]
        have c1 := mul_le_mul_of_nonneg_left h1 hw0.le
        have c2 := mul_le_mul_of_nonneg_left h2 (by linarith : 0 ≤ w 1)
        have c3 : 0 ≤ w 0 * (2 - A) := mul_nonneg hw0.le (by linarith)
        have c4 : 0 ≤ w 1 * (2 - B) := mul_nonneg (by linarith) (by linarith)
        have c5 : w 0 * (1 / 10 ^ 20) + w 1 * (1 / 10 ^ 20) = 1 / 10 ^ 20 := by rw [← add_mul, hw, one_mul]
        have c6 : (1 : ℝ) / 10 ^ 20 < 1 / 10 ^ 11 := by norm_num
        rw [abs_lt]
        constructor <;> linarith
    have hflat : newtonRun (fun mu => kSum id sf.fn
        (KMap.ofRange (oneRank wideKey w (wideShift y E c)).energies.flatten)
        (KMap.ofRange (oneRank wideKey w (wideShift y E c)).weights.flatten) wideP.T wideP.occ mu)
        (fun mu => kSum (· /ᶠ (lit kB *ᶠ wideP.T)) sf.delta
        (KMap.ofRange (oneRank wideKey w (wideShift y E c)).energies.flatten)
        (KMap.ofRange (oneRank wideKey w (wideShift y E c)).weights.flatten) wideP.T wideP.occ mu)
        (fun mu => kSum (· /ᶠ ((lit kB *ᶠ wideP.T) *ᶠ (lit kB *ᶠ wideP.T))) sf.dxdelta
        (KMap.ofRange (oneRank wideKey w (wideShift y E c)).energies.flatten)
        (KMap.ofRange (oneRank wideKey w (wideShift y E c)).weights.flatten) wideP.T wideP.occ mu)
        (1 / 8) wideP.ne wideP.tol = .throw .failedToConverge := by
      refine newtonRun_flat ?_
      simp only [kSum_wide, real_div, real_mul, real_lit, wideP_kT, hne, id]
      have a1 : (100 : ℝ) ≤ |1000 * (1 / 8 + c) + 2| := le_abs.2 (.inl (by linarith))
      have a2 : 100 ≤ |1000 * (1 / 8 + c) - y| := le_abs.2 (.inl (by linarith))
      have a3 : 100 ≤ |1000 * (1 / 8 + c - E)| := le_abs.2 (.inr (by linarith))
      have f1 := h.fnFar _ a1
      have f2 := h.fnFar _ a2
      have f3 := h.fnFar _ a3
      have d1 := h.delta _ a1
      have d2 := h.delta _ a2
      have d3 := h.delta _ a3
      have x1 := h.dxdelta _ a1
      have x2 := h.dxdelta _ a2
      have x3 := h.dxdelta _ a3
      have mix : ∀ {A B C q : ℝ}, |A| ≤ q → |B| ≤ q → |C| ≤ q → |w 0 * (A + C) + w 1 * (B + C)| ≤ 2 * q := by
        intro A B C q hA hB hC
        rw [abs_le] at *
        have m1 := mul_le_mul_of_nonneg_left hA.1 hw0.le
        have m2 := mul_le_mul_of_nonneg_left hA.2 hw0.le
        have m3 := mul_le_mul_of_nonneg_left hB.1 (by linarith : 0 ≤ w 1)
        have m4 := mul_le_mul_of_nonneg_left hB.2 (by linarith : 0 ≤ w 1)
        have e : w 0 * (A + C) + w 1 * (B + C) = w 0 * A + w 1 * B + (w 0 + w 1) * C := by ring
        have e' : w 0 * q + w 1 * q = q := by rw [← add_mul, hw, one_mul]
        rw [e, hw, one_mul]
        constructor <;> linarith [hC.1, hC.2]
      have hN' := mix f1 f2 f3
      have hd' := mix d1 d2 d3
      have hx' := mix x1 x2 x3
      generalize w 0 * (sf.fn (1000 * (1 / 8 + c) + 2) 2 + sf.fn (1000 * (1 / 8 + c - E)) 2)
        + w 1 * (sf.fn (1000 * (1 / 8 + c) - y) 2 + sf.fn (1000 * (1 / 8 + c - E)) 2) = P at *
      have ed : w 0 / (1 / 1000) * (sf.delta (1000 * (1 / 8 + c) + 2) 2 + sf.delta (1000 * (1 / 8 + c - E)) 2)
        + w 1 / (1 / 1000) * (sf.delta (1000 * (1 / 8 + c) - y) 2 + sf.delta (1000 * (1 / 8 + c - E)) 2)
        = 1000 * (w 0 * (sf.delta (1000 * (1 / 8 + c) + 2) 2 + sf.delta (1000 * (1 / 8 + c - E)) 2)
        + w 1 * (sf.delta (1000 * (1 / 8 + c) - y) 2 + sf.delta (1000 * (1 / 8 + c - E)) 2)) := by ring
      have ex : w 0 / (1 / 1000 * (1 / 1000)) * (sf.dxdelta (1000 * (1 / 8 + c) + 2) 2 + sf.dxdelta (1000 * (1 / 8 + c - E)) 2)
        + w 1 / (1 / 1000 * (1 / 1000)) * (sf.dxdelta (1000 * (1 / 8 + c) - y) 2 + sf.dxdelta (1000 * (1 / 8 + c - E)) 2)
        = 1000000 * (w 0 * (sf.dxdelta (1000 * (1 / 8 + c) + 2) 2 + sf.dxdelta (1000 * (1 / 8 + c - E)) 2)
        + w 1 * (sf.dxdelta (1000 * (1 / 8 + c) - y) 2 + sf.dxdelta (1000 * (1 / 8 + c - E)) 2)) := by ring
      rw [ed, ex]
      generalize w 0 * (sf.delta (1000 * (1 / 8 + c) + 2) 2 + sf.delta (1000 * (1 / 8 + c - E)) 2)
        + w 1 * (sf.delta (1000 * (1 / 8 + c) - y) 2 + sf.delta (1000 * (1 / 8 + c - E)) 2) = Q at *
      generalize w 0 * (sf.dxdelta (1000 * (1 / 8 + c) + 2) 2 + sf.dxdelta (1000 * (1 / 8 + c - E)) 2)
        + w 1 * (sf.dxdelta (1000 * (1 / 8 + c) - y) 2 + sf.dxdelta (1000 * (1 / 8 + c - E)) 2) = R at *
      have g1 : |2 * (1000 * Q) * (1000 * Q)| ≤ 1 / 10 ^ 15 := by
        have : 2 * (1000 * Q) * (1000 * Q) = 2000000 * (Q * Q) := by ring
        rw [this, abs_mul, abs_mul, abs_of_pos (by norm_num : (0 : ℝ) < 2000000)]
        have hq := mul_le_mul hd' hd' (abs_nonneg _) (by norm_num)
        refine (mul_le_mul_of_nonneg_left hq (by norm_num)).trans ?_
        norm_num
      have g2 : |2 * (P - 2) * (1000000 * R)| ≤ 1 / 10 ^ 11 := by
        have hP : |P - 2| ≤ 8 := (abs_sub _ _).trans (by norm_num at hN' ⊢; linarith)
        have : 2 * (P - 2) * (1000000 * R) = 2000000 * ((P - 2) * R) := by ring
        rw [this, abs_mul, abs_mul, abs_of_pos (by norm_num : (0 : ℝ) < 2000000)]
        have hq := mul_le_mul hP hx' (abs_nonneg _) (by norm_num)
        refine (mul_le_mul_of_nonneg_left hq (by norm_num)).trans ?_
        norm_num
      refine lt_of_le_of_lt (abs_add_le _ _) (lt_of_le_of_lt (add_le_add g1 g2) ?_)
      norm_num
    rw [C04_fallback _ _ _ _ _ _ _ hgauss hflat]
    exact hbr

/-- the search returns zero, with and without Newton -/
theorem wide_search (useNewton : Bool) (h : Overfills sf y) (hE : 1 ≤ E) :
    globalSearch useNewton (smearFns .gauss) sf wideP (oneRank wideKey (wideWeights sf y E) (wideBands y E)) = .ok 0 := by
  obtain ⟨-, -, -, hN⟩ := wideWeights_ok h hE
  rw [← wideShift_zero, wide_bracket useNewton h hE le_rfl (by norm_num)]
  refine findChemPotRun_zero ?_ (by norm_num)
  simp only [real_lit]
  push_cast
  rw [show (1000 : ℝ) * (0 + 0) + 2 = 2 by ring, show 1000 * (0 + 0 - E) = -(1000 * E) by ring,
    show (1000 : ℝ) * (0 + 0) - y = -y by ring, hN, sub_self]

end Nlcg
