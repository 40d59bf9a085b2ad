import Verif.Proofs.Smearing
import Verif.Props.ChemPot
import Verif.Spec.Smearing

/-!
# C06-C14: the smearing functions

Exact real arithmetic. `t` ranges over the five smearing types of the API; `mo` is the maximal
occupancy.
-/

namespace Nlcg
open Real Spec

/-! ## C06 -/

/-- Occupations lie between 0 and the maximal occupancy, cut-offs included. -/
theorem C06_occupation_bounds (t : SmearType) (ht : Monotonic t) (x mo : ℝ) (h : 0 ≤ mo) :
    0 ≤ (smearFns t).fn x mo ∧ (smearFns t).fn x mo ≤ mo := by
  cases t with
  | fermiDirac => exact ⟨fdFn_nonneg x h, fdFn_le x h⟩
  | gaussianSpline => exact ⟨gsFn_nonneg x h, gsFn_le x h⟩
  | gauss => exact ⟨gaussFn_nonneg x h, gaussFn_le x h⟩
  | methfesselPaxton => exact ht.elim
  | cold => exact ht.elim

example : Monotonic .fermiDirac ∧ (0 : ℝ) ≤ 2 := ⟨trivial, by norm_num⟩

/-- The same for the occupations returned to the caller on every rank, whatever the inputs. -/
theorem C06_returned_occupations (ndebug : Bool) (t : SmearType) (ht : Monotonic t)
    (p : OccParams ℝ) (h : 0 ≤ p.occ) (d : Spec.Dist ℝ) (hd : d.Proper)
    (hne : ndebug = true ∨ ∀ r ∈ d, ∀ q ∈ r, q.energies ≠ [])
    (outs : List (Res (ℝ × KMap Key (List ℝ))))
    (hrun : occupationFromMvector ndebug t.nonMonotonous (smearFns .gauss) (smearFns t) p
      d.energies d.weights = .ok outs)
    (mu : ℝ) (fs : KMap Key (List ℝ)) (hout : .ok (mu, fs) ∈ outs)
    (k : Key) (f : List ℝ) (hk : (k, f) ∈ fs) (v : ℝ) (hv : v ∈ f) : 0 ≤ v ∧ v ≤ p.occ := by
  rw [occupation_eq _ _ _ _ _ _ hd hne] at hrun
  cases hrun
  obtain ⟨x, _, hx⟩ := List.mem_map.1 hout
  have hocc := (finishRank_ok hx).2
  dsimp only at hocc
  subst hocc
  obtain ⟨e, _, he⟩ := List.mem_map.1 hk
  cases he
  obtain ⟨ei, _, hei⟩ := List.mem_map.1 hv
  rw [← hei]
  exact C06_occupation_bounds t ht _ _ h

/-- one band at 0 with one of two electrons: the call returns the occupation 1 -/
example : ∃ outs, occupationFromMvector true false (smearFns .gauss) (smearFns .gauss)
    { T := 300, occ := 2, ne := 1, tol := 1 / 10 ^ 11 }
    (Dist.energies [[{ key := (0, 0), weight := 1, energies := [0] }]])
    (Dist.weights [[{ key := (0, 0), weight := (1 : ℝ), energies := [0] }]]) = .ok outs ∧
    .ok (0, [((0, 0), [1])]) ∈ outs := by
  have hd : Dist.Proper [[{ key := (0, 0), weight := (1 : ℝ), energies := [(0 : ℝ)] }]] :=
    List.nodup_singleton _
  refine ⟨_, occupation_eq _ _ _ _ _ _ hd (Or.inl rfl), ?_⟩
  have h0 : ∀ T : ℝ, (1 : ℝ) - kSum id (smearFns .gauss).fn
      (KMap.ofRange (Dist.energies
        [[{ key := (0, 0), weight := (1 : ℝ), energies := [(0 : ℝ)] }]]).flatten)
      (KMap.ofRange (Dist.weights
        [[{ key := (0, 0), weight := (1 : ℝ), energies := [(0 : ℝ)] }]]).flatten) T 2 0 = 0 := by
    intro T
    rw [kSum_dist _ _ _ hd]
    simp [smearFns, gaussFn, erf_zero]
  have hs : globalSearch false (smearFns .gauss) (smearFns .gauss)
      { T := 300, occ := 2, ne := 1, tol := 1 / 10 ^ 11 }
      [[{ key := (0, 0), weight := (1 : ℝ), energies := [(0 : ℝ)] }]] = .ok 0 := by
    have h := C02_good_start_kept (fun mu => (1 : ℝ) - kSum id (smearFns .gauss).fn
      (KMap.ofRange (Dist.energies
        [[{ key := (0, 0), weight := (1 : ℝ), energies := [(0 : ℝ)] }]]).flatten)
      (KMap.ofRange (Dist.weights
        [[{ key := (0, 0), weight := (1 : ℝ), energies := [(0 : ℝ)] }]]).flatten) 300 2 mu) 0
      (1 / 10 ^ 11) (by simp only [h0]; simp) (by simp only [h0]; simp)
    refine Eq.trans ?_ h
    simp [globalSearch, chemPotGathered]
  rw [hs]
  simp [Dist.energies, finishRank, occupy, smearFns, gaussFn, erf_zero]

/-- The restriction is needed: cold smearing overfills every band between `√2 kT` and `8 kT` below
the chemical potential. -/
theorem C06_cold_overfills (x mo : ℝ) (hmo : 0 < mo) (h1 : √2 ≤ x) (h2 : x ≤ 8) :
    mo < (smearFns .cold).fn x mo := by
  have hs : 0 ≤ √(2 : ℝ) := sqrt_nonneg 2
  show mo < coldFn x mo
  rw [coldFn, if_neg (by linarith), if_neg (by linarith)]
  exact cold_mid_gt x mo hmo h1

example : √(2 : ℝ) ≤ 2 ∧ (2 : ℝ) ≤ 8 :=
  ⟨by rw [sqrt_le_left (by norm_num)]; norm_num, by norm_num⟩

/-! ## C07 -/

/-- An occupation never decreases with its argument `(mu - e) / kT`, also across the cut-offs. -/
theorem C07_occupation_monotone (t : SmearType) (ht : Monotonic t) (mo x y : ℝ) (h : 0 ≤ mo)
    (hxy : x ≤ y) : (smearFns t).fn x mo ≤ (smearFns t).fn y mo := by
  cases t with
  | fermiDirac => exact fdFn_mono h hxy
  | gaussianSpline => exact gsFn_mono h hxy
  | gauss => exact gaussFn_mono h hxy
  | methfesselPaxton => exact ht.elim
  | cold => exact ht.elim

/-- In terms of chemical potential and band energy. -/
theorem C07_monotone_in_mu_and_energy (t : SmearType) (ht : Monotonic t) (mo T mu mu' e e' : ℝ)
    (h : 0 ≤ mo) (hT : 0 < T) (hmu : mu ≤ mu') (he : e' ≤ e) :
    (smearFns t).fn ((mu - e) / ((kB : ℚ) * T)) mo
      ≤ (smearFns t).fn ((mu' - e') / ((kB : ℚ) * T)) mo := by
  refine C07_occupation_monotone t ht mo _ _ h ?_
  have := mul_pos kB_pos hT
  exact div_le_div_of_nonneg_right (by linarith) this.le

/-- The electron count that the search for the chemical potential evaluates, over all k-points of
all ranks, never decreases with the chemical potential. -/
theorem C07_count_monotone (t : SmearType) (ht : Monotonic t) (d : Spec.Dist ℝ) (hd : d.Proper)
    (hw : ∀ q ∈ d.flatten, 0 ≤ q.weight) (T occ : ℝ) (hT : 0 < T) (hocc : 0 ≤ occ) :
    Monotone fun mu => kSum id (smearFns t).fn (KMap.ofRange d.energies.flatten)
      (KMap.ofRange d.weights.flatten) T occ mu := by
  intro mu mu' hmu
  simp only [kSum_dist _ _ _ hd]
  refine List.sum_le_sum fun q hq => ?_
  refine mul_le_mul_of_nonneg_left ?_ (hw q hq)
  exact List.sum_le_sum fun e _ =>
    C07_monotone_in_mu_and_energy t ht occ T mu mu' e e hocc hT hmu le_rfl

/-- a k-point with positive weight -/
example : ∃ d : Spec.Dist ℝ, d.Proper ∧ (∀ q ∈ d.flatten, 0 ≤ q.weight) ∧ d.flatten ≠ [] :=
  ⟨[[{ key := (0, 0), weight := 1, energies := [0, 1] }]], List.nodup_singleton _, by simp, by simp⟩

/-! ## C08 -/

/-- Delta is the derivative of the occupation. -/
theorem C08_delta_is_derivative (t : SmearType) (mo x : ℝ) (hx : x ∈ inside t) :
    HasDerivAt (fun y => (smearFns t).fn y mo) ((smearFns t).delta x mo) x := by
  cases t with
  | gauss => exact hasDerivAt_gaussFn x mo
  | methfesselPaxton => exact hasDerivAt_mpFn x mo
  | fermiDirac =>
    have hd : (smearFns .fermiDirac).delta x mo = mo * exp x / (1 + exp x) ^ 2 := by
      have : ¬ |x| > 35 := not_lt.2 (abs_lt.2 hx).le
      show fdDelta x mo = _
      rw [fdDelta, if_neg this]; exact fdDelta_mid x mo
    rw [hd]
    refine (hasDerivAt_fdMid x mo).congr_of_eventuallyEq ?_
    filter_upwards [Ioo_mem_nhds hx.1 hx.2] with y hy
    show fdFn y mo = _
    rw [fdFn_eq_cut, if_neg (by linarith [hy.1]), if_neg (by linarith [hy.2])]
  | gaussianSpline =>
    have hd : (smearFns .gaussianSpline).delta x mo = _ :=
      if_neg (not_lt.2 (abs_lt.2 hx).le)
    rw [hd]
    refine (hasDerivAt_gsMid x mo).congr_of_eventuallyEq ?_
    filter_upwards [Ioo_mem_nhds hx.1 hx.2] with y hy
    show gsFn y mo = _
    rw [gsFn_eq_cut, if_neg (by linarith [hy.1]), if_neg (by linarith [hy.2])]
  | cold =>
    have hd : (smearFns .cold).delta x mo
        = mo * exp (-(x - 1 / √2) * (x - 1 / √2)) * (2 - √2 * x) / √π := by
      show coldDelta x mo = _
      rw [coldDelta, if_neg (by linarith [hx.1]), if_neg (by linarith [hx.2])]
    rw [hd]
    refine (hasDerivAt_coldMid x mo).congr_of_eventuallyEq ?_
    filter_upwards [Ioo_mem_nhds hx.1 hx.2] with y hy
    show coldFn y mo = _
    rw [coldFn, if_neg (by linarith [hy.2]), if_neg (by linarith [hy.1])]

example : (1 : ℝ) ∈ inside .cold ∧ (-3 : ℝ) ∈ inside .gaussianSpline ∧
    (30 : ℝ) ∈ inside .fermiDirac := by
  refine ⟨⟨?_, ?_⟩, ⟨?_, ?_⟩, ⟨?_, ?_⟩⟩ <;> norm_num

/-! ## C09 -/

/-- Missing from C09: Methfessel-Paxton, and the Gaussian spline at `x ≤ 0`, where it is false. -/
theorem C09_dxdelta_is_derivative_partial (t : SmearType) (mo x : ℝ) (hx : x ∈ insideDelta t)
    (ht : t ≠ .methfesselPaxton) (hgs : t = .gaussianSpline → 0 < x) :
    HasDerivAt (fun y => (smearFns t).delta y mo) ((smearFns t).dxdelta x mo) x := by
  cases t with
  | gauss => exact hasDerivAt_gaussDelta x mo
  | methfesselPaxton => exact absurd rfl ht
  | fermiDirac =>
    have h35 : |x| < 35 := abs_lt.2 hx
    have hd : (smearFns .fermiDirac).dxdelta x mo
        = -mo * (exp x * (exp x - 1)) / (1 + exp x) ^ 3 := if_neg (by linarith)
    rw [hd]
    refine (hasDerivAt_fdDeltaMid x mo).congr_of_eventuallyEq ?_
    filter_upwards [Ioo_mem_nhds hx.1 hx.2] with y hy
    show fdDelta y mo = _
    rw [fdDelta, if_neg (not_lt.2 (abs_lt.2 hy).le)]; exact fdDelta_mid y mo
  | gaussianSpline =>
    have h0 := hgs rfl
    have hd : (smearFns .gaussianSpline).dxdelta x mo
        = if x ≤ 0 then -2 * mo * exp ((√2 - x) * x) * x * (√2 - x)
          else -2 * mo * exp (-x * (√2 + x)) * x * (√2 + x) := by
      show gsDxdelta x mo = _
      rw [gsDxdelta, if_neg (by push Not; constructor <;> linarith [hx.1, hx.2]),
        if_neg (not_le.2 h0), if_neg (not_le.2 h0)]
    rw [hd]
    refine (hasDerivAt_gsDeltaMid x mo).congr_of_eventuallyEq ?_
    filter_upwards [Ioo_mem_nhds hx.1 hx.2] with y hy
    exact if_neg (not_lt.2 (abs_lt.2 hy).le)
  | cold =>
    have hd : (smearFns .cold).dxdelta x mo
        = mo * exp (-(x - 1 / √2) * (x - 1 / √2)) * (√2 - 6 * x + 2 * √2 * x * x) / √π := by
      show coldDxdelta x mo = _
      rw [coldDxdelta, if_neg (by linarith [hx.1]), if_neg (by linarith [hx.2])]
    rw [hd]
    refine (hasDerivAt_coldDeltaMid x mo).congr_of_eventuallyEq ?_
    filter_upwards [Ioo_mem_nhds hx.1 hx.2] with y hy
    show coldDelta y mo = _
    rw [coldDelta, if_neg (by linarith [hy.1]), if_neg (by linarith [hy.2])]

/-- C09 is false of the Gaussian spline at every argument in `(-7, 0]`: the code's formula misses
a factor `x`. -/
theorem C09_not_gaussian_spline (mo x : ℝ) (hmo : mo ≠ 0) (h7 : -7 < x) (h0 : x ≤ 0) :
    ¬ HasDerivAt (fun y => (smearFns .gaussianSpline).delta y mo)
      ((smearFns .gaussianSpline).dxdelta x mo) x := by
  intro hcode
  have htrue : HasDerivAt (fun y => (smearFns .gaussianSpline).delta y mo)
      (-2 * mo * exp ((√2 - x) * x) * x * (√2 - x)) x := by
    have h := hasDerivAt_gsDeltaMid x mo
    rw [if_pos h0] at h
    refine h.congr_of_eventuallyEq ?_
    filter_upwards [Ioo_mem_nhds h7 (show x < 7 by linarith)] with y hy
    exact if_neg (not_lt.2 (abs_lt.2 hy).le)
  have he := hcode.unique htrue
  have hd : (smearFns .gaussianSpline).dxdelta x mo
      = -2 * mo * exp ((√2 - x) * x) * (√2 - x) := by
    show gsDxdelta x mo = _
    rw [gsDxdelta, if_neg (by push Not; constructor <;> linarith), if_pos h0]
  rw [hd] at he
  have h2 : 0 < √(2 : ℝ) := by positivity
  have hz : (mo * exp ((√2 - x) * x) * (√2 - x)) * (1 - x) = 0 := by linear_combination (-1/2) * he
  have hne : mo * exp ((√2 - x) * x) * (√2 - x) ≠ 0 :=
    mul_ne_zero (mul_ne_zero hmo (exp_pos _).ne') (by linarith)
  rcases mul_eq_zero.1 hz with h | h
  · exact hne h
  · linarith

/-- C09 is false of Methfessel-Paxton: at `x = 0`, where delta has its maximum, the code's
derivative is not 0. -/
theorem C09_not_methfessel_paxton (mo x : ℝ) (hmo : mo ≠ 0) (h1 : x ≠ 1)
    (h5 : 2 * x * x ≠ 5) :
    ¬ HasDerivAt (fun y => (smearFns .methfesselPaxton).delta y mo)
      ((smearFns .methfesselPaxton).dxdelta x mo) x := by
  intro hcode
  have he := hcode.unique (hasDerivAt_mpDelta x mo)
  have hp := sqrtpi_pos.ne'
  have hd : (smearFns .methfesselPaxton).dxdelta x mo
      = mo * exp (-x * x) * (2 * x * x - 5) / √π := rfl
  rw [hd] at he
  have hz : (mo * exp (-x * x) * (2 * x * x - 5)) * (x - 1) = 0 := by
    rw [div_left_inj' hp] at he
    linear_combination -he
  have hne : mo * exp (-x * x) * (2 * x * x - 5) ≠ 0 :=
    mul_ne_zero (mul_ne_zero hmo (exp_pos _).ne') (sub_ne_zero.2 h5)
  rcases mul_eq_zero.1 hz with h | h
  · exact hne h
  · exact h1 (by linarith)

example : (2 : ℝ) ≠ 0 ∧ (0 : ℝ) ≠ 1 ∧ (2 * 0 * 0 : ℝ) ≠ 5 := by norm_num

/-! ## C10 -/

/-- Missing from C10: the Gaussian spline for `mo ≠ 1`, where it is false. -/
theorem C10_entropy_derivative_partial (t : SmearType) (mo x : ℝ) (hx : x ∈ insideDelta t)
    (hgs : t = .gaussianSpline → mo = 1) :
    HasDerivAt (fun y => (smearFns t).entropy y mo) (-x * (smearFns t).delta x mo) x := by
  cases t with
  | gauss => exact hasDerivAt_gaussEntropy x mo
  | methfesselPaxton => exact hasDerivAt_mpEntropy x mo
  | fermiDirac =>
    have hd : (smearFns .fermiDirac).delta x mo = mo * exp x / (1 + exp x) ^ 2 := by
      show fdDelta x mo = _
      rw [fdDelta, if_neg (not_lt.2 (abs_lt.2 hx).le)]; exact fdDelta_mid x mo
    rw [hd]
    refine (hasDerivAt_fdEntropyMid x mo).congr_of_eventuallyEq ?_
    filter_upwards [Ioo_mem_nhds hx.1 hx.2] with y hy
    have h35 : |y| < 35 := abs_lt.2 hy
    exact if_neg (by linarith)
  | gaussianSpline =>
    have h1 := hgs rfl
    subst h1
    have hd : -x * (smearFns .gaussianSpline).delta x 1
        = if x ≤ 0 then -x * (0.5 * exp ((√2 - x) * x) * (√2 - 2 * x))
          else -x * (0.5 * exp (-x * (√2 + x)) * (√2 + 2 * x)) := by
      show -x * gsDelta x 1 = _
      rw [gsDelta, if_neg (not_lt.2 (abs_lt.2 hx).le)]
      split_ifs <;> ring
    rw [hd]
    refine (hasDerivAt_gsEntropyMid x).congr_of_eventuallyEq ?_
    filter_upwards [Ioo_mem_nhds hx.1 hx.2] with y hy
    show gsEntropy y 1 = _
    rw [gsEntropy, if_neg (not_lt.2 (abs_lt.2 hy).le)]
    rcases le_or_gt y 0 with h | h
    · rw [if_neg (not_lt.2 h), if_pos h]
    · rw [if_pos h, if_neg (not_le.2 h)]
  | cold =>
    have hd : (smearFns .cold).delta x mo
        = mo * exp (-(x - 1 / √2) * (x - 1 / √2)) * (2 - √2 * x) / √π := by
      show coldDelta x mo = _
      rw [coldDelta, if_neg (by linarith [hx.1]), if_neg (by linarith [hx.2])]
    rw [hd]
    refine (hasDerivAt_coldEntropyMid x mo).congr_of_eventuallyEq ?_
    filter_upwards [Ioo_mem_nhds hx.1 hx.2] with y hy
    show coldEntropy y mo = _
    rw [coldEntropy, if_neg (by linarith [hy.1]), if_neg (by linarith [hy.2])]

/-- C10 is false of the Gaussian spline for every max occupancy other than 1, in particular for
`mo = 2` of a spin-unpolarised calculation: the entropy ignores `mo`. -/
theorem C10_not_gaussian_spline (mo x : ℝ) (hmo : mo ≠ 1) (h7 : |x| < 7) (h0 : x ≠ 0) :
    ¬ HasDerivAt (fun y => (smearFns .gaussianSpline).entropy y mo)
      (-x * (smearFns .gaussianSpline).delta x mo) x := by
  intro hcode
  have h1 := C10_entropy_derivative_partial .gaussianSpline 1 x (abs_lt.1 h7) (fun _ => rfl)
  have he := hcode.unique h1
  have hs : -x * gsDelta x mo = -x * gsDelta x 1 := he
  rw [gsDelta_scale] at hs
  have hp := gsDelta_pos x h7.le
  have hz : (x * gsDelta x 1) * (mo - 1) = 0 := by linear_combination -hs
  rcases mul_eq_zero.1 hz with h | h
  · exact (mul_ne_zero h0 hp.ne') h
  · exact hmo (by linarith)

example : (2 : ℝ) ≠ 1 ∧ |(1 : ℝ)| < 7 ∧ (1 : ℝ) ≠ 0 := by norm_num

/-! ## C11 -/

/-- The entropy term of the reported free energy is never positive. `ks`: weight and band energies
of all k-points. -/
theorem C11_entropy_term_nonpos (t : SmearType) (ht : Monotonic t) (T occ mu : ℝ)
    (ks : List (ℝ × List ℝ)) (hT : 0 ≤ T) (hocc : 0 ≤ occ) (hw : ∀ k ∈ ks, 0 ≤ k.1) :
    entropyTerm t T occ mu ks ≤ 0 := by
  have hs : 0 ≤ (ks.map fun k => k.1 * sumFunc (smearFns t).entropy k.2 mu T occ).sum := by
    refine List.sum_nonneg fun v hv => ?_
    obtain ⟨k, hk, rfl⟩ := List.mem_map.1 hv
    refine mul_nonneg (hw k hk) ?_
    rw [sumFunc_real]
    refine List.sum_nonneg fun v hv => ?_
    obtain ⟨e, _, rfl⟩ := List.mem_map.1 hv
    exact entropy_nonneg t ht _ _ hocc
  have := mul_nonneg kB_pos.le hT
  rw [entropyTerm, smearingEntropy]
  nlinarith

/-- Witness that the term is not identically zero: one band at the chemical potential. -/
example : entropyTerm .gauss 300 2 0 [(1, [0])] < 0 := by
  have h1 := sqrtpi_pos
  have h2 := kB_pos
  have e : entropyTerm .gauss 300 2 0 [(1, [0])] = -((kB : ℚ) * 300 * (1 / √π)) := by
    simp [entropyTerm, smearingEntropy, sumFunc_real, smearFns, gaussEntropy]
  rw [e]
  have : 0 < ((kB : ℚ) : ℝ) * 300 * (1 / √π) := by positivity
  linarith

/-! ## C12 -/

/-- The Fermi-Dirac entropy is the mixing entropy of the occupation fraction. -/
theorem C12_fermi_dirac_mixing_entropy (x mo : ℝ) (h1 : -35 ≤ x) (h2 : x ≤ 40) :
    (smearFns .fermiDirac).entropy x mo = mo * mixing ((smearFns .fermiDirac).fn x 1) := by
  have hp := one_add_exp_pos x
  have hf : (smearFns .fermiDirac).fn x 1 = exp x / (1 + exp x) := by
    show fdFn x 1 = _
    rw [fdFn_eq_cut, if_neg (not_lt.2 h1), if_neg (not_lt.2 h2), fdMid_eq, one_mul]
  have hg : 1 - exp x / (1 + exp x) = 1 / (1 + exp x) := by field_simp; ring
  have he : (smearFns .fermiDirac).entropy x mo
      = mo * (log (1 + exp x) - exp x * x / (1 + exp x)) :=
    if_neg (not_lt.2 (abs_le.2 ⟨by linarith, h2⟩))
  rw [he, hf, mixing, hg, log_div (exp_pos x).ne' hp.ne', log_exp,
    log_div one_ne_zero hp.ne', log_one]
  congr 1
  field_simp
  ring

/-- Outside the cut-offs of the entropy both sides are 0. -/
theorem C12_outside (x mo : ℝ) (h : 40 < |x|) :
    (smearFns .fermiDirac).entropy x mo = mo * mixing ((smearFns .fermiDirac).fn x 1) := by
  have he : (smearFns .fermiDirac).entropy x mo = 0 := if_pos h
  rw [he]
  rcases lt_abs.1 h with h | h
  · have : (smearFns .fermiDirac).fn x 1 = 1 := by
      show fdFn x 1 = _
      rw [fdFn_eq_cut, if_neg (by linarith), if_pos h]
    rw [this]; simp [mixing]
  · have : (smearFns .fermiDirac).fn x 1 = 0 := by
      show fdFn x 1 = _
      rw [fdFn_eq_cut, if_pos (by linarith)]
    rw [this]; simp [mixing]

/-- at half filling the entropy is that of two equally likely states -/
example : (smearFns .fermiDirac).entropy 0 2 = 2 * mixing (1 / 2) ∧ (40 : ℝ) < |(41 : ℝ)| := by
  refine ⟨?_, by norm_num⟩
  rw [C12_fermi_dirac_mixing_entropy 0 2 (by norm_num) (by norm_num)]
  have : (smearFns .fermiDirac).fn 0 1 = 1 / 2 := by
    show fdFn 0 1 = _
    rw [fdFn_eq_cut, if_neg (by norm_num), if_neg (by norm_num), fdMid, exp_zero]
    norm_num
  rw [this]

/-! ## C13 -/

/-- Missing from C13: Fermi-Dirac at `35 < |x| ≤ 40`, where it is false. -/
theorem C13_particle_hole_partial (t : SmearType) (ht : t ≠ .cold) (x mo : ℝ)
    (hx : t = .fermiDirac → |x| ≤ 35 ∨ 40 < |x|) :
    (smearFns t).fn x mo + (smearFns t).fn (-x) mo = mo := by
  cases t with
  | cold => exact absurd rfl ht
  | gauss =>
    show gaussFn x mo + gaussFn (-x) mo = mo
    rw [gaussFn, gaussFn, erf_neg]; ring
  | methfesselPaxton =>
    show mpFn x mo + mpFn (-x) mo = mo
    simp only [mpFn, erf_neg, neg_mul_neg]; ring
  | gaussianSpline =>
    show gsFn x mo + gsFn (-x) mo = mo
    rw [gsFn, gsFn]
    split_ifs <;> first | linarith | skip
    · have : x = 0 := by linarith
      subst this; simp
    · have e : - -x * (√2 + -x) = x * (√2 - x) := by ring
      rw [e]; ring
    · have e : -x * (√2 - -x) = -x * (√2 + x) := by ring
      rw [e]; ring
  | fermiDirac =>
    show fdFn x mo + fdFn (-x) mo = mo
    rcases hx rfl with h | h
    · have h' := abs_le.1 h
      rw [fdFn_eq_cut, fdFn_eq_cut, if_neg (by linarith [h'.1]), if_neg (by linarith [h'.2]),
        if_neg (by linarith [h'.2]), if_neg (by linarith [h'.1]), fdMid, fdMid, exp_neg]
      have := exp_pos x
      field_simp
      ring
    · rcases lt_abs.1 h with h | h
      · rw [fdFn_eq_cut, fdFn_eq_cut, if_neg (by linarith), if_pos h, if_pos (by linarith)]; ring
      · rw [fdFn_eq_cut, fdFn_eq_cut, if_pos (by linarith), if_neg (by linarith),
          if_pos (by linarith)]; ring

/-- C13 is false of Fermi-Dirac between its two cut-offs: electrons are lost. -/
theorem C13_not_fermi_dirac (x mo : ℝ) (h1 : 35 < x) (h2 : x ≤ 40) (hmo : 0 < mo) :
    (smearFns .fermiDirac).fn x mo + (smearFns .fermiDirac).fn (-x) mo < mo := by
  show fdFn x mo + fdFn (-x) mo < mo
  rw [fdFn_eq_cut, fdFn_eq_cut, if_neg (by linarith), if_neg (by linarith),
    if_pos (by linarith), fdMid]
  have : 0 < mo / (1 + exp x) := by positivity
  linarith

example : SmearType.fermiDirac ≠ .cold ∧ (|(1 : ℝ)| ≤ 35 ∨ 40 < |(1 : ℝ)|) ∧ (35 : ℝ) < 36 ∧ (36 : ℝ) ≤ 40 :=
  ⟨by simp, .inl (by norm_num), by norm_num, by norm_num⟩

/-! ## C14 -/

/-- Fermi-Dirac: the cut-offs change the ideal occupation by at most `mo * exp(-35)`. -/
theorem C14_fermi_dirac_cutoff (x mo : ℝ) (h : 0 ≤ mo) :
    |(smearFns .fermiDirac).fn x mo - mo * fermi x| ≤ mo * exp (-35) := by
  show |fdFn x mo - mo * fermi x| ≤ _
  rw [fermi_eq, fdFn_eq_cut]
  split_ifs with h1 h2
  · rw [zero_sub, abs_neg, abs_of_nonneg (fdMid_nonneg x h), fdMid_eq]
    refine mul_le_mul_of_nonneg_left ?_ h
    have he := exp_pos x
    have : exp x ≤ exp (-35) := exp_le_exp.2 h1.le
    rw [div_le_iff₀ (by positivity)]
    nlinarith
  · have e : mo - fdMid x mo = mo * (1 / (1 + exp x)) := by rw [fdMid]; ring
    rw [e, abs_of_nonneg (by positivity)]
    refine mul_le_mul_of_nonneg_left ?_ h
    rw [exp_neg, one_div]
    refine inv_anti₀ (exp_pos _) ?_
    have : exp 35 ≤ exp x := exp_le_exp.2 (by linarith)
    linarith
  · simp; positivity

/-- Gaussian spline: likewise. -/
theorem C14_gaussian_spline_cutoff (x mo : ℝ) (h : 0 ≤ mo) :
    |(smearFns .gaussianSpline).fn x mo - mo * spline x| ≤ mo * exp (-35) := by
  have h2 : 0 ≤ √(2 : ℝ) := sqrt_nonneg 2
  show |gsFn x mo - mo * spline x| ≤ _
  rw [spline_eq, gsFn_eq_cut]
  split_ifs with h1 h3
  · rw [zero_sub, abs_neg, abs_of_nonneg (gsMid_nonneg x h), gsMid, if_pos (by linarith)]
    have : exp (x * (√2 - x)) ≤ exp (-35) := exp_le_exp.2 (by nlinarith)
    have := exp_pos (-35)
    nlinarith
  · have e : mo - gsMid x mo = mo * (0.5 * exp (-x * (√2 + x))) := by
      rw [gsMid, if_neg (by linarith)]; ring
    rw [e, abs_of_nonneg (by positivity)]
    refine mul_le_mul_of_nonneg_left ?_ h
    have : exp (-x * (√2 + x)) ≤ exp (-35) := exp_le_exp.2 (by nlinarith)
    have := exp_pos (-35)
    linarith
  · simp; positivity

/-- the cut-offs are used: beyond them the occupation is exactly full, the ideal one is not -/
example : (smearFns .fermiDirac).fn 41 2 = 2 ∧ 2 * fermi 41 ≠ 2 := by
  constructor
  · show fdFn 41 2 = _
    rw [fdFn_eq_cut, if_neg (by norm_num), if_pos (by norm_num)]
  · have : fermi 41 < 1 := by
      rw [fermi, div_lt_one (by positivity)]
      linarith [exp_pos (-41 : ℝ), exp_pos (41 : ℝ)]
    exact fun h => this.ne (by linarith)

end Nlcg
