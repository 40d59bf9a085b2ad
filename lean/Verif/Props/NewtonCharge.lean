import Verif.Proofs.NewtonCharge

/-!
# C04 for a concrete system

Newton's method minimises the square of the charge deviation and accepts a minimum that is not a zero.
-/

namespace Nlcg
open Real Spec Arith

/-- Two k-points with two bands each: levels `100 kT` and `a kT` below and above zero. -/
noncomputable def coldBands (a : ℝ) : Bands fun _ : Fin 2 => 2 := ![![-1 / 10, 1 / 10], ![-a / 1000, a / 1000]]

noncomputable def coldWeights : Fin 2 → ℝ := ![399 / 400, 1 / 400]

theorem kSum_cold (g : ℝ → ℝ) (func : ℝ → ℝ → ℝ) (a mu : ℝ) :
    kSum g func (KMap.ofRange (oneRank wideKey coldWeights (coldBands a)).energies.flatten)
      (KMap.ofRange (oneRank wideKey coldWeights (coldBands a)).weights.flatten) wideP.T wideP.occ mu
      = g (399 / 400) * (func (1000 * mu + 100) 2 + func (1000 * mu - 100) 2)
        + g (1 / 400) * (func (1000 * mu + a) 2 + func (1000 * mu - a) 2) := by
  rw [kSum_oneRank g func wideKey_inj, Fin.sum_univ_two, wideP_kT]
  have ho : wideP.occ = 2 := rfl
  simp only [List.map_ofFn, List.sum_ofFn, Function.comp_def, Fin.sum_univ_two, ho, coldBands, coldWeights]
  have e1 : ∀ a : ℝ, (mu - a) / (1 / 1000) = 1000 * (mu - a) := fun a => by ring
  simp only [e1]
  simp only [Matrix.cons_val_zero, Matrix.cons_val_one]
  rw [show 1000 * (mu - -1 / 10) = 1000 * mu + 100 by ring, show 1000 * (mu - 1 / 10) = 1000 * mu - 100 by ring,
    show 1000 * (mu - -a / 1000) = 1000 * mu + a by ring, show 1000 * (mu - a / 1000) = 1000 * mu - a by ring]

/-- Newton's method stops at once where the count is stationary -/
theorem newtonRun_stationary {N dN ddN : ℝ → ℝ} {mu0 ne tol : ℝ} (h0 : dN mu0 = 0) (ht : 0 < tol)
    (h : 1 / 10000000000 ≤ |2 * (N mu0 - ne) * ddN mu0|) (hN : |N mu0 - ne| ≤ 1 / 100) :
    newtonRun N dN ddN mu0 ne tol = .ok mu0 := by
  have hb : newtonBody N dN ddN ne tol 1000 { mu := mu0, iter := 0 } = .inl (.ok mu0) := by
    simp only [newtonBody, real_lt, real_abs, real_lit, real_mul, real_add, real_sub, real_div, h0]
    push_cast
    rw [if_neg (by rw [decide_eq_true_eq]; norm_num at h ⊢; exact h), if_pos (by simp [ht]),
      if_neg (by simpa using hN)]
    simp
  rw [newtonRun, newton, newtonLoop, hb]

/-- **C04** fails for cold smearing: at 316 K two electrons in four bands (two k-points of weights 399/400 and 1/400,
at most two electrons per band) get occupations that hold more than `1e-5` electrons too many, although the tolerance
is `1e-11`. Newton's method stops at a stationary point of the count. -/
theorem C04_not_cold (ndebug : Bool) : ∃ (p : OccParams ℝ) (d : Spec.Dist ℝ) (mu : ℝ) (fs : List (KMap Key (List ℝ))),
    315 < p.T ∧ p.T < 316 ∧ p.occ = 2 ∧ p.ne = 2 ∧ p.tol = 1 / 10 ^ 11 ∧ d.Proper ∧
    (∀ q ∈ d.flatten, 0 < q.weight ∧ q.energies.length = 2) ∧ (d.flatten.map KPoint.weight).sum = 1 ∧
    occupationFromMvector ndebug true (smearFns .gauss) (smearFns .cold) p d.energies d.weights
      = .ok (fs.map fun f => .ok (mu, f)) ∧
    fs.length = d.length ∧ p.ne + 1 / 10 ^ 5 < totalCharge d fs := by
  obtain ⟨a, ha⟩ := balanced_exists
  have hT : 315 < wideP.T ∧ wideP.T < 316 := by
    simp only [wideP, kB]
    norm_num
  have hc : coldFn 100 2 = 2 ∧ coldFn (-100) 2 = 0 := by
    constructor
    · rw [coldFn, if_pos (by norm_num)]
    · rw [coldFn, if_neg (by norm_num), if_pos (by norm_num)]
  have hd : coldDelta 100 2 = 0 ∧ coldDelta (-100) 2 = 0 := by
    constructor
    · rw [coldDelta, if_neg (by norm_num), if_pos (by norm_num)]
    · rw [coldDelta, if_pos (by norm_num)]
  have hdd : coldDxdelta 100 2 = 0 ∧ coldDxdelta (-100) 2 = 0 := by
    constructor
    · rw [coldDxdelta, if_neg (by norm_num), if_pos (by norm_num)]
    · rw [coldDxdelta, if_pos (by norm_num)]
  have hp := oneRank_proper wideKey_inj coldWeights (coldBands a)
  have htol : wideP.tol = 1 / 10 ^ 11 := rfl
  have hne : wideP.ne = 2 := rfl
  have ez : ∀ func : ℝ → ℝ → ℝ, ∀ g : ℝ → ℝ,
      kSum g func (KMap.ofRange (oneRank wideKey coldWeights (coldBands a)).energies.flatten)
        (KMap.ofRange (oneRank wideKey coldWeights (coldBands a)).weights.flatten) wideP.T wideP.occ 0
      = g (399 / 400) * (func 100 2 + func (-100) 2) + g (1 / 400) * (func a 2 + func (-a) 2) := by
    intro func g
    rw [kSum_cold]
    simp
  have hs : globalSearch true (smearFns .gauss) (smearFns .cold) wideP (oneRank wideKey coldWeights (coldBands a))
      = .ok 0 := by
    simp only [globalSearch, if_true, chemPotGatheredNewton, chemPotNewton]
    rw [findChemPotRun_zero]
    · rw [Res.bind_ok, newtonRun_stationary]
      · rw [ez]
        show _ * (coldDelta 100 2 + coldDelta (-100) 2) + _ * (coldDelta a 2 + coldDelta (-a) 2) = 0
        rw [hd.1, hd.2, ha.delta]
        ring
      · rw [htol]; norm_num
      · rw [ez, ez]
        show _ ≤ |2 * (_ * (coldFn 100 2 + coldFn (-100) 2) + _ * (coldFn a 2 + coldFn (-a) 2) - wideP.ne)
          * (_ * (coldDxdelta 100 2 + coldDxdelta (-100) 2) + _ * (coldDxdelta a 2 + coldDxdelta (-a) 2))|
        rw [hc.1, hc.2, hdd.1, hdd.2, hne]
        simp only [id, real_div, real_mul, real_lit]
        rw [wideP_kT]
        have h1 := ha.count.1
        have h2 := ha.dxdelta
        generalize coldFn a 2 + coldFn (-a) 2 = x at *
        generalize coldDxdelta a 2 + coldDxdelta (-a) 2 = y at *
        have e : 2 * (399 / 400 * (2 + 0) + 1 / 400 * x - 2)
            * (399 / 400 / (1 / 1000 * (1 / 1000)) * (0 + 0) + 1 / 400 / (1 / 1000 * (1 / 1000)) * y)
            = -((25 / 2) * (x - 2) * (-y)) := by ring
        rw [e, abs_neg, abs_of_nonneg (by nlinarith)]
        nlinarith
      · rw [ez]
        show |_ * (coldFn 100 2 + coldFn (-100) 2) + _ * (coldFn a 2 + coldFn (-a) 2) - wideP.ne| ≤ _
        rw [hc.1, hc.2, hne]
        simp only [id]
        have h1 := ha.count
        rw [abs_le]
        constructor <;> linarith [h1.1, h1.2]
    · have e : (lit 0 : ℝ) = 0 := by simp
      rw [e, ez, real_sub, hne]
      have h1 := C13_particle_hole_partial .gauss (by simp) 100 2 (by simp)
      have h2 := C13_particle_hole_partial .gauss (by simp) a 2 (by simp)
      rw [h1, h2]
      norm_num
    · rw [htol]; norm_num
  refine ⟨wideP, oneRank wideKey coldWeights (coldBands a), 0,
    (oneRank wideKey coldWeights (coldBands a)).energies.map (occupy (smearFns .cold) 0 (lit kB *ᶠ wideP.T) wideP.occ),
    hT.1, hT.2, rfl, rfl, rfl, hp, ?_, ?_, ?_, by simp [Dist.energies], ?_⟩
  · intro q hq
    simp only [oneRank, List.flatten_cons, List.flatten_nil, List.append_nil, List.mem_ofFn] at hq
    obtain ⟨k, rfl⟩ := hq
    refine ⟨?_, by simp⟩
    fin_cases k <;> simp [coldWeights]
  · simp [oneRank, coldWeights, List.map_ofFn, List.sum_ofFn, Fin.sum_univ_two]
    norm_num
  · rw [occupation_eq ndebug true _ _ _ _ hp (.inr (by
      intro r hr q hq
      simp only [oneRank, List.mem_singleton] at hr
      subst hr
      obtain ⟨k, rfl⟩ := List.mem_ofFn.1 hq
      simp)), hs, List.map_map]
    rfl
  · rw [totalCharge_occupy]
    have h := kSum_dist id (smearFns .cold).fn _ hp wideP.T wideP.occ 0
    rw [ez] at h
    simp only [id] at h
    simp only [real_mul, real_lit]
    rw [← h]
    show wideP.ne + _ < 399 / 400 * (coldFn 100 2 + coldFn (-100) 2) + 1 / 400 * (coldFn a 2 + coldFn (-a) 2)
    rw [hc.1, hc.2, hne]
    have h1 := ha.count.1
    norm_num at h1 ⊢
    linarith

end Nlcg
