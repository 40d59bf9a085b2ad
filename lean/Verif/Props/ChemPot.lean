import Verif.Proofs.Occupation
import Verif.Spec.Charge
import Mathlib.Tactic.NormNum
import Mathlib.Tactic.Positivity

/-!
# C01-C05: chemical potential and occupations

Theorems over an arbitrary `α` with `[Arith α]` use no law of arithmetic and so hold for IEEE
doubles including NaN and infinities.
-/

namespace Nlcg
open Arith Spec
variable {α : Type} [Arith α]

/-! ## C01 -/

/-- The bracketing search returns only chemical potentials whose charge deviation is (in the
machine's own comparison) below the tolerance; every other run throws `std::runtime_error`. -/
theorem C01_search_accepts_only_within_tolerance (f : α → α) (mu0 tol : α) :
    (∃ mu, findChemPotRun f mu0 tol = .ok mu ∧ (Arith.abs (f mu) <ᶠ tol) = true) ∨
    findChemPotRun f mu0 tol = .throw .runtimeError :=
  findChemPotRun_cases

/-- If every comparison with the deviation is false (NaN), the search throws. -/
theorem C01_nan_throws (f : α → α) (mu0 tol : α)
    (hnan : ∀ mu, (Arith.abs (f mu) <ᶠ tol) = false) :
    findChemPotRun f mu0 tol = .throw .runtimeError := by
  rcases findChemPotRun_cases (f := f) (mu0 := mu0) (tol := tol) with ⟨mu, _, h⟩ | h
  · rw [hnan mu] at h; cases h
  · exact h

/-- Charge conservation of the occupations actually returned, over all ranks, in exact
arithmetic: either all ranks return, with occupations whose weighted sum over all k-points of all
ranks misses the requested electron number by strictly less than `tol`, or all ranks throw
`std::runtime_error`. -/
theorem C01_charge_conserved (ndebug : Bool) (gauss sf : SmearFns ℝ) (p : OccParams ℝ)
    (d : Dist ℝ) (hd : d.Proper) (hne : ndebug = true ∨ ∀ r ∈ d, ∀ q ∈ r, q.energies ≠ []) :
    ∃ outs, occupationFromMvector ndebug false gauss sf p d.energies d.weights = .ok outs ∧
      ((∃ (mu : ℝ) (fs : List (KMap Key (List ℝ))), outs = fs.map (fun f => .ok (mu, f)) ∧
          fs.length = d.length ∧ |p.ne - totalCharge d fs| < p.tol) ∨
       outs = List.replicate d.length (.throw .runtimeError)) := by
  refine ⟨_, occupation_eq ndebug false gauss sf p d hd hne, ?_⟩
  have hlen : d.energies.length = d.length := by simp [Dist.energies]
  rcases findChemPotRun_cases (f := fun mu => p.ne -ᶠ kSum id sf.fn
    (KMap.ofRange d.energies.flatten) (KMap.ofRange d.weights.flatten) p.T p.occ mu)
    (mu0 := lit 0) (tol := p.tol) with ⟨mu, h, hlt⟩ | h
  · left
    refine ⟨mu, d.energies.map (occupy sf mu (lit kB *ᶠ p.T) p.occ), ?_, by simpa using hlen, ?_⟩
    · have : globalSearch false gauss sf p d = .ok mu := h
      rw [this, List.map_map]
      rfl
    · rw [totalCharge_occupy]
      simp only [real_sub, real_abs, real_lt, decide_eq_true_eq] at hlt
      rw [kSum_dist _ _ _ hd] at hlt
      exact hlt
  · right
    have : globalSearch false gauss sf p d = .throw .runtimeError := h
    rw [this, ← hlen]
    exact map_const_of_length rfl _

/-- The same without any law of arithmetic except that negating a difference swaps it (true of
IEEE doubles in every rounding mode that is symmetric, and of NaN): the charge of the returned
occupations, added up in key order by the machine, is accepted by the machine's comparison. -/
theorem C01_charge_conserved_any_arith [Inhabited α] (ndebug : Bool) (gauss sf : SmearFns α)
    (p : OccParams α) (d : Dist α) (hd : d.Proper)
    (hne : ndebug = true ∨ ∀ r ∈ d, ∀ q ∈ r, q.energies ≠ [])
    (hneg : ∀ e mu : α, lit (-1) *ᶠ (e -ᶠ mu) = mu -ᶠ e) :
    ∃ outs, occupationFromMvector ndebug false gauss sf p d.energies d.weights = .ok outs ∧
      ((∃ (mu : α) (fs : List (KMap Key (List α))), outs = fs.map (fun f => .ok (mu, f)) ∧
          fs.length = d.length ∧
          (Arith.abs (p.ne -ᶠ chargeInOrder (KMap.ofRange d.weights.flatten) fs.flatten)
            <ᶠ p.tol) = true) ∨
       outs = List.replicate d.length (.throw .runtimeError)) := by
  refine ⟨_, occupation_eq ndebug false gauss sf p d hd hne, ?_⟩
  have hlen : d.energies.length = d.length := by simp [Dist.energies]
  rcases findChemPotRun_cases (f := fun mu => p.ne -ᶠ kSum id sf.fn
    (KMap.ofRange d.energies.flatten) (KMap.ofRange d.weights.flatten) p.T p.occ mu)
    (mu0 := lit 0) (tol := p.tol) with ⟨mu, h, hlt⟩ | h
  · left
    refine ⟨mu, d.energies.map (occupy sf mu (lit kB *ᶠ p.T) p.occ), ?_, by simpa using hlen, ?_⟩
    · have : globalSearch false gauss sf p d = .ok mu := h
      rw [this, List.map_map]
      rfl
    · rw [← hlt]
      congr 3
      unfold chargeInOrder kSum sumFunc energiesAt
      congr 1
      funext s e
      rw [KMap.lookup_ofRange]
      have hl : KMap.lookup e.1 (d.energies.map (occupy sf mu (lit kB *ᶠ p.T) p.occ)).flatten =
          (KMap.lookup e.1 d.energies.flatten).map
            (List.map fun ei => sf.fn ((mu -ᶠ ei) /ᶠ (lit kB *ᶠ p.T)) p.occ) := by
        rw [occupy_flatten]
        exact KMap.lookup_mapVal _ _ _
      rw [hl]
      cases KMap.lookup e.1 d.energies.flatten with
      | none => simp
      | some es => simp [List.foldl_map, hneg]
  · right
    have : globalSearch false gauss sf p d = .throw .runtimeError := h
    rw [this, ← hlen]
    exact map_const_of_length rfl _

/-! ## C02 -/

/-- Whatever the electron count function, start value, tolerance and arithmetic: the loop ends
after at most 1000 updates of the chemical potential, and then returns or throws
`std::runtime_error`. The outcome does not depend on the fuel of the model. -/
theorem C02_search_terminates (f : α → α) (mu0 tol : α) :
    ∃ r updates, updates ≤ 1000 ∧ (∀ fuel, 1000 ≤ fuel →
      findChemPot fuel f mu0 tol = some (r, updates)) ∧
      ((∃ mu, r = .ok mu) ∨ r = .throw .runtimeError) := by
  obtain ⟨j, hj, hw, _⟩ := findChemPot_eq (f := f) (mu0 := mu0) (tol := tol)
  refine ⟨_, j, hj, hw, ?_⟩
  rcases cpFinish_cases (f := f) (tol := tol) ((cpBody f)^[j] (cpInit mu0)) with h | h
  · exact Or.inl ⟨_, h.1⟩
  · exact Or.inr h.1

/-- If the start value is accepted, it is returned unchanged. -/
theorem C02_good_start_kept (f : α → α) (mu0 tol : α)
    (h1 : (tol <ᶠ Arith.abs (f mu0)) = false) (h2 : (Arith.abs (f mu0) <ᶠ tol) = true) :
    findChemPotRun f mu0 tol = .ok mu0 := by
  have hg : cpGuard f tol (cpInit mu0) = false := by simp [cpGuard, cpInit, h1]
  have hw : whileFuel (cpGuard f tol) (cpBody f) (cpNmax + 1) (cpInit mu0) = some (cpInit mu0) := by
    rw [whileFuel, hg]; rfl
  have hf : cpFinish f tol (cpInit mu0) = .ok mu0 := by simp [cpFinish, cpInit, h2]
  simp only [findChemPotRun, findChemPot, hw, Option.map_some, hf]

/-! ## C03 -/

/-- Exact arithmetic. If the electron count is non-decreasing in `mu` (so that the deviation `f`
is non-increasing) and the deviation is below `tol` on `[m-d, m+d]`, with `m` within `10^9` of the
start value and `d ≥ 10^-60`, then the search does not run out of steps: it returns a chemical
potential with deviation below `tol`, unless it meets a point where the deviation equals `tol`
exactly. -/
theorem C03_search_succeeds (f : ℝ → ℝ) (mu0 tol m d : ℝ) (hf : Antitone f)
    (hwin : ∀ mu, |mu - m| ≤ d → |f mu| < tol) (hm : |m - mu0| ≤ 10 ^ 9)
    (hd : (10 : ℝ)⁻¹ ^ 60 ≤ d) :
    (∃ mu, findChemPotRun f mu0 tol = .ok mu ∧ |f mu| < tol) ∨
    (findChemPotRun f mu0 tol = .throw .runtimeError ∧ ∃ mu, |f mu| = tol) := by
  have hpos : 0 ≤ d := le_trans (by positivity) hd
  have hfm : |f m| < tol := hwin m (by simpa using hpos)
  have H : CPWindow f tol m d :=
    { low := fun mu h => by
        by_contra hc
        have := hf (not_lt.mp hc)
        have := (abs_lt.mp hfm).2
        linarith
      high := fun mu h => by
        by_contra hc
        have := hf (not_lt.mp hc)
        have := (abs_lt.mp hfm).1
        linarith
      window := hwin
      pos := hpos }
  have hex : CPExit f tol 984 (cpInit mu0) := by
    refine cp_converges H 104 220 hm ?_ (le_trans ?_ hd)
    · norm_num
    · norm_num
  obtain ⟨j, hj, hw, hg, hall⟩ := findChemPot_eq (f := f) (mu0 := mu0) (tol := tol)
  have hrun : findChemPotRun f mu0 tol = cpFinish f tol ((cpBody f)^[j] (cpInit mu0)) := by
    simp [findChemPotRun, hw (cpNmax + 1) (by omega)]
  have hle : |f ((cpBody f)^[j] (cpInit mu0)).mu| ≤ tol := by
    obtain ⟨k, hk, hke⟩ := hex
    have hjk : j ≤ k := by
      by_contra hc
      have := hall k (by omega)
      simp only [cpGuard, real_lt, real_abs, Bool.and_eq_true, decide_eq_true_eq] at this
      linarith [this.1]
    have hc : ((cpBody f)^[j] (cpInit mu0)).counter < cpNmax := by
      rw [cpBody_counter]; simp [cpInit, cpNmax]; omega
    simp only [cpGuard, hc, decide_true, Bool.and_true, real_lt, real_abs,
      decide_eq_false_iff_not, not_lt] at hg
    exact hg
  rcases cpFinish_cases (f := f) (tol := tol) ((cpBody f)^[j] (cpInit mu0)) with ⟨h, hlt⟩ | ⟨h, hlt⟩
  · left; exact ⟨_, hrun.trans h, by simpa using hlt⟩
  · right
    refine ⟨hrun.trans h, _, le_antisymm hle ?_⟩
    simpa using hlt

/-- The exception is real: a start value whose deviation equals the tolerance exactly is neither
improved nor accepted. -/
theorem C03_exact_tolerance_refused (f : ℝ → ℝ) (mu0 tol : ℝ) (h : |f mu0| = tol) :
    findChemPotRun f mu0 tol = .throw .runtimeError := by
  have hg : cpGuard f tol (cpInit mu0) = false := by simp [cpGuard, cpInit, h]
  have hw : whileFuel (cpGuard f tol) (cpBody f) (cpNmax + 1) (cpInit mu0) = some (cpInit mu0) := by
    rw [whileFuel, hg]; rfl
  have hf : cpFinish f tol (cpInit mu0) = .throw .runtimeError := by simp [cpFinish, cpInit, h]
  simp only [findChemPotRun, findChemPot, hw, Option.map_some, hf]

/-! ## C04 -/

/-- Newton always leaves its `while (true)` loop, after at most `maxstep + 1` passes; it either
reports `failed_to_converge` or returns a value whose charge deviation was not found above 0.01. -/
theorem C04_newton_terminates (N dN ddN : α → α) (mu0 ne tol : α) (maxstep : Nat) :
    ∃ r passes, passes ≤ maxstep + 1 ∧
      (∀ fuel, maxstep + 1 ≤ fuel →
        newton fuel N dN ddN mu0 ne tol maxstep = some (r, passes)) ∧
      (r = .throw .failedToConverge ∨
        ∃ mu, r = .ok mu ∧ (lit (1 / 100) <ᶠ Arith.abs (N mu -ᶠ ne)) = false) := by
  have h := newtonLoop_isSome (N := N) (dN := dN) (ddN := ddN) (ne := ne) (tol := tol)
    (maxstep := maxstep) (maxstep + 1) (st := { mu := mu0, iter := 0 }) (p := 0) (by simp)
    (by omega)
  obtain ⟨r, hr⟩ := Option.isSome_iff_exists.mp h
  have hs := newtonLoop_spec _ hr
  refine ⟨r.1, r.2, ?_, fun fuel hf => newtonLoop_mono _ _ hf hr, hs.1⟩
  have := hs.2 (by simp)
  simpa using this

/-- If Newton does not converge, the result is that of the bracketing search for the same electron
count (provided the Gauss start value was found). -/
theorem C04_fallback (fGauss N dN ddN : α → α) (ne tol mu0 : α)
    (hstart : findChemPotRun fGauss (lit 0) tol = .ok mu0)
    (hfail : newtonRun N dN ddN mu0 ne tol = .throw .failedToConverge) :
    chemPotNewton fGauss N dN ddN ne tol =
      findChemPotRun (fun mu => ne -ᶠ N mu) (lit 0) tol := by
  simp [chemPotNewton, hstart, hfail]

/-- If the Gauss start search fails, so does the whole call: no fallback. -/
theorem C04_start_failure_propagates (fGauss N dN ddN : α → α) (ne tol : α)
    (hstart : findChemPotRun fGauss (lit 0) tol = .throw .runtimeError) :
    chemPotNewton fGauss N dN ddN ne tol = .throw .runtimeError := by
  simp [chemPotNewton, hstart]

/-- Missing from C04: the accuracy is that of the other smearings only after a fallback. A value
accepted by Newton is only known not to miss the electron number by more than 0.01. The outcomes
are exactly: return, or `std::runtime_error`. -/
theorem C04_accuracy_partial (fGauss N dN ddN : α → α) (ne tol : α) :
    (∃ mu, chemPotNewton fGauss N dN ddN ne tol = .ok mu ∧
      ((lit (1 / 100) <ᶠ Arith.abs (N mu -ᶠ ne)) = false ∨
       (Arith.abs (ne -ᶠ N mu) <ᶠ tol) = true)) ∨
    chemPotNewton fGauss N dN ddN ne tol = .throw .runtimeError := by
  rcases findChemPotRun_cases (f := fGauss) (mu0 := lit 0) (tol := tol) with ⟨mu0, h, _⟩ | h
  · obtain ⟨r, passes, _, hrun, hr⟩ := C04_newton_terminates N dN ddN mu0 ne tol 1000
    have hn : newtonRun N dN ddN mu0 ne tol = r := by simp [newtonRun, hrun 1001 (by omega)]
    rcases hr with hr | ⟨mu, hr, hacc⟩
    · subst hr
      rw [C04_fallback _ _ _ _ _ _ _ h hn]
      rcases findChemPotRun_cases (f := fun mu => ne -ᶠ N mu) (mu0 := lit 0) (tol := tol) with
        ⟨mu, h2, hlt⟩ | h2
      · exact Or.inl ⟨mu, h2, Or.inr hlt⟩
      · exact Or.inr h2
    · subst hr
      exact Or.inl ⟨mu, by simp [chemPotNewton, h, hn], Or.inl hacc⟩
  · exact Or.inr (C04_start_failure_propagates _ _ _ _ _ _ h)

/-- The same bound for the occupations returned by all ranks, in exact arithmetic. -/
theorem C04_charge_partial (ndebug : Bool) (gauss sf : SmearFns ℝ) (p : OccParams ℝ)
    (d : Dist ℝ) (hd : d.Proper) (hne : ndebug = true ∨ ∀ r ∈ d, ∀ q ∈ r, q.energies ≠ []) :
    ∃ outs, occupationFromMvector ndebug true gauss sf p d.energies d.weights = .ok outs ∧
      ((∃ (mu : ℝ) (fs : List (KMap Key (List ℝ))), outs = fs.map (fun f => .ok (mu, f)) ∧
          fs.length = d.length ∧ |p.ne - totalCharge d fs| ≤ max (1 / 100) p.tol) ∨
       outs = List.replicate d.length (.throw .runtimeError)) := by
  refine ⟨_, occupation_eq ndebug true gauss sf p d hd hne, ?_⟩
  have hlen : d.energies.length = d.length := by simp [Dist.energies]
  have key := C04_accuracy_partial
    (fun mu => p.ne -ᶠ kSum id gauss.fn (KMap.ofRange d.energies.flatten)
      (KMap.ofRange d.weights.flatten) p.T p.occ mu)
    (fun mu => kSum id sf.fn (KMap.ofRange d.energies.flatten)
      (KMap.ofRange d.weights.flatten) p.T p.occ mu)
    (fun mu => kSum (· /ᶠ (lit kB *ᶠ p.T)) sf.delta (KMap.ofRange d.energies.flatten)
      (KMap.ofRange d.weights.flatten) p.T p.occ mu)
    (fun mu => kSum (· /ᶠ ((lit kB *ᶠ p.T) *ᶠ (lit kB *ᶠ p.T))) sf.dxdelta
      (KMap.ofRange d.energies.flatten) (KMap.ofRange d.weights.flatten) p.T p.occ mu) p.ne p.tol
  rcases key with ⟨mu, h, hlt⟩ | h
  · left
    refine ⟨mu, d.energies.map (occupy sf mu (lit kB *ᶠ p.T) p.occ), ?_, by simpa using hlen, ?_⟩
    · have : globalSearch true gauss sf p d = .ok mu := h
      rw [this, List.map_map]
      rfl
    · rw [totalCharge_occupy]
      rw [kSum_dist _ _ _ hd] at hlt
      rcases hlt with hlt | hlt
      · simp only [real_sub, real_abs, real_lt, decide_eq_false_iff_not, not_lt, real_lit] at hlt
        rw [abs_sub_comm] at hlt
        refine le_trans hlt (le_trans ?_ (le_max_left _ _))
        norm_num
      · simp only [real_sub, real_abs, real_lt, decide_eq_true_eq] at hlt
        exact le_trans (le_of_lt hlt) (le_max_right _ _)
  · right
    have : globalSearch true gauss sf p d = .throw .runtimeError := h
    rw [this, ← hlen]
    exact map_const_of_length rfl _

/-- C04 as stated is false of the code: for an electron count `N` with its correct derivatives,
the call returns a chemical potential whose charge is off by 0.005 although the tolerance is
`10^-11` (Newton accepts the stationary point). -/
theorem C04_not_within_tolerance : ∃ (fGauss N dN ddN : ℝ → ℝ) (ne tol mu : ℝ),
    tol = 1 / 10 ^ 11 ∧ (∀ x, N x = x ^ 2 + 1 / 200) ∧ (∀ x, dN x = 2 * x) ∧ (∀ x, ddN x = 2) ∧
    chemPotNewton fGauss N dN ddN ne tol = .ok mu ∧ |N mu - ne| = 1 / 200 := by
  refine ⟨fun x => x, fun x => x ^ 2 + 1 / 200, fun x => 2 * x, fun _ => 2, 0, 1 / 10 ^ 11, 0, rfl,
    fun _ => rfl, fun _ => rfl, fun _ => rfl, ?_, by norm_num⟩
  have h0 : findChemPotRun (fun x : ℝ => x) (lit 0) (1 / 10 ^ 11 : ℝ) = .ok (lit 0) :=
    C02_good_start_kept _ _ _ (by simp) (by simp)
  have hb : newtonBody (fun x : ℝ => x ^ 2 + 1 / 200) (fun x => 2 * x) (fun _ => 2) 0 (1 / 10 ^ 11)
      1000 { mu := lit 0, iter := 0 } = .inl (.ok 0) := by
    simp only [newtonBody, real_lit, real_mul, real_sub, real_add, real_abs, real_div, real_lt]
    norm_num
  have hn : newtonRun (fun x : ℝ => x ^ 2 + 1 / 200) (fun x => 2 * x) (fun _ => 2) (lit 0) 0
      (1 / 10 ^ 11) = .ok 0 := by
    rw [newtonRun, newton, newtonLoop, hb]
  simp only [chemPotNewton, h0, Res.bind_ok, hn]

/-! ## C05 -/

/-- Distribute the same k-points in two ways over any numbers of ranks: there is one outcome `r`
such that all ranks of both runs obtain exactly `r` (bitwise: no law of arithmetic is used), be it
a chemical potential or an exception. This holds for every smearing, with and without Newton. -/
theorem C05_ranks_agree [Inhabited α] (ndebug useNewton : Bool) (gauss sf : SmearFns α)
    (p : OccParams α) (d d' : Dist α) (hd : d.Proper) (hs : d.Same d')
    (hne : ndebug = true ∨ ∀ q ∈ d.flatten, q.energies ≠ []) :
    ∃ (r : Res α) (outs outs' : List (Res (α × KMap Key (List α)))),
      occupationFromMvector ndebug useNewton gauss sf p d.energies d.weights = .ok outs ∧
      occupationFromMvector ndebug useNewton gauss sf p d'.energies d'.weights = .ok outs' ∧
      outs.map muOf = List.replicate d.length r ∧
      outs'.map muOf = List.replicate d'.length r := by
  have hd' : d'.Proper := ((hs.map KPoint.key).nodup_iff).mp hd
  have hne' : ndebug = true ∨ ∀ r ∈ d', ∀ q ∈ r, q.energies ≠ [] := by
    rcases hne with h | h
    · exact Or.inl h
    · exact Or.inr fun r hr q hq =>
        h q (hs.mem_iff.mpr (List.mem_flatten.mpr ⟨r, hr, hq⟩))
  have hne1 : ndebug = true ∨ ∀ r ∈ d, ∀ q ∈ r, q.energies ≠ [] := by
    rcases hne with h | h
    · exact Or.inl h
    · exact Or.inr fun r hr q hq => h q (List.mem_flatten.mpr ⟨r, hr, hq⟩)
  have hmu : ∀ (x : KMap Key (List α)) (r : Res α) (kT : α),
      muOf (finishRank sf kT p.occ x r) = r := by
    intro x r kT; cases r <;> rfl
  refine ⟨globalSearch useNewton gauss sf p d, _, _,
    occupation_eq ndebug useNewton gauss sf p d hd hne1,
    occupation_eq ndebug useNewton gauss sf p d' hd' hne', ?_, ?_⟩
  · rw [List.map_map]
    simp only [Function.comp_def, hmu]
    rw [map_const_of_length rfl]; simp [Dist.energies]
  · rw [List.map_map, ← globalSearch_same useNewton gauss sf p hd hs]
    simp only [Function.comp_def, hmu]
    rw [map_const_of_length rfl]; simp [Dist.energies]

/-- ... and every k-point gets the same occupations, wherever it is stored. -/
theorem C05_occupations_distribution_independent [Inhabited α] (ndebug useNewton : Bool)
    (gauss sf : SmearFns α) (p : OccParams α) (d d' : Dist α) (hd : d.Proper) (hs : d.Same d')
    (hne : ndebug = true ∨ ∀ q ∈ d.flatten, q.energies ≠ []) (mu mu' : α)
    (fs fs' : List (KMap Key (List α)))
    (h : occupationFromMvector ndebug useNewton gauss sf p d.energies d.weights =
      .ok (fs.map fun f => .ok (mu, f)))
    (h' : occupationFromMvector ndebug useNewton gauss sf p d'.energies d'.weights =
      .ok (fs'.map fun f => .ok (mu', f))) (hr : fs ≠ []) (hr' : fs' ≠ []) :
    mu = mu' ∧ fs.flatten.Perm fs'.flatten := by
  have hd' : d'.Proper := ((hs.map KPoint.key).nodup_iff).mp hd
  have hne' : ndebug = true ∨ ∀ r ∈ d', ∀ q ∈ r, q.energies ≠ [] := by
    rcases hne with h | h
    · exact Or.inl h
    · exact Or.inr fun r hr q hq =>
        h q (hs.mem_iff.mpr (List.mem_flatten.mpr ⟨r, hr, hq⟩))
  have hne1 : ndebug = true ∨ ∀ r ∈ d, ∀ q ∈ r, q.energies ≠ [] := by
    rcases hne with h | h
    · exact Or.inl h
    · exact Or.inr fun r hr q hq => h q (List.mem_flatten.mpr ⟨r, hr, hq⟩)
  rw [occupation_eq ndebug useNewton gauss sf p d hd hne1] at h
  rw [occupation_eq ndebug useNewton gauss sf p d' hd' hne',
    ← globalSearch_same useNewton gauss sf p hd hs] at h'
  have aux : ∀ (e : List (KMap Key (List α))) (g : List (KMap Key (List α))) (m : α),
      g ≠ [] → (e.map fun x => finishRank sf (lit kB *ᶠ p.T) p.occ x
        (globalSearch useNewton gauss sf p d)) = g.map (fun f => Res.ok (m, f)) →
      globalSearch useNewton gauss sf p d = .ok m ∧
        g = e.map (occupy sf m (lit kB *ᶠ p.T) p.occ) := by
    intro e g m hg heq
    cases hs : globalSearch useNewton gauss sf p d with
    | ok m' =>
      rw [hs] at heq
      have hm : m' = m := by
        cases g with
        | nil => exact absurd rfl hg
        | cons a g =>
          cases e with
          | nil => simp at heq
          | cons b e =>
            simp only [List.map_cons, List.cons.injEq] at heq
            have := heq.1
            simp [finishRank] at this
            exact this.1
      subst hm
      refine ⟨rfl, ?_⟩
      have := congrArg (List.map fun o : Res (α × KMap Key (List α)) =>
        match o with | .ok q => q.2 | _ => []) heq
      simpa [List.map_map, Function.comp_def, finishRank] using this.symm
    | throw x =>
      rw [hs] at heq
      cases g with
      | nil => exact absurd rfl hg
      | cons a g => cases e <;> simp [finishRank] at heq
    | ub =>
      rw [hs] at heq
      cases g with
      | nil => exact absurd rfl hg
      | cons a g => cases e <;> simp [finishRank] at heq
    | abort =>
      rw [hs] at heq
      cases g with
      | nil => exact absurd rfl hg
      | cons a g => cases e <;> simp [finishRank] at heq
  obtain ⟨g1, e1⟩ := aux _ _ _ hr (Res.ok.inj h)
  obtain ⟨g2, e2⟩ := aux _ _ _ hr' (Res.ok.inj h')
  rw [g1] at g2
  have hmu : mu = mu' := Res.ok.inj g2
  subst hmu
  refine ⟨rfl, ?_⟩
  rw [e1, e2, occupy_flatten, occupy_flatten, Dist.energies_flatten, Dist.energies_flatten]
  exact (hs.map _).map _

/-! ## Non-vacuity -/

section Examples

/-- three k-points on two ranks, and the same on three ranks in another order -/
def exDist : Dist ℚ :=
  [[⟨toLex (0, 0), 1 / 2, [-1, 2]⟩, ⟨toLex (2, 0), 1 / 4, [0]⟩], [⟨toLex (1, 0), 1 / 4, [1]⟩]]
def exDist' : Dist ℚ :=
  [[⟨toLex (1, 0), 1 / 4, [1]⟩], [], [⟨toLex (0, 0), 1 / 2, [-1, 2]⟩, ⟨toLex (2, 0), 1 / 4, [0]⟩]]

example : exDist.Proper := by unfold Dist.Proper; decide
example : exDist.Same exDist' := by
  show List.Perm [_, _, _] [_, _, _]
  exact (List.perm_append_comm (l₁ := [_, _]) (l₂ := [_]))
example : ∀ q ∈ exDist.flatten, q.energies ≠ [] := by
  simp [exDist]

/-- a toy smearing (a step) for which the search really returns after several steps -/
def stepFns : SmearFns ℚ where
  fn x mo := if 0 ≤ x then mo else 0
  delta _ _ := 0
  dxdelta _ _ := 0
  entropy _ _ := 0

example : (occupationFromMvector true false stepFns stepFns
    { T := 1, occ := 1, ne := 1, tol := 1 / 10 } exDist.energies exDist.weights) =
    .ok [.ok (2101 / 2048, [(toLex (0, 0), [1, 0]), (toLex (2, 0), [1])]),
         .ok (2101 / 2048, [(toLex (1, 0), [1])])] := by
  decide +kernel

/-- hypotheses of C03 for a concrete count with a flat part -/
example : ∃ (f : ℝ → ℝ) (m d tol : ℝ), Antitone f ∧ (∀ mu, |mu - m| ≤ d → |f mu| < tol) ∧
    |m - 0| ≤ 10 ^ 9 ∧ (10 : ℝ)⁻¹ ^ 60 ≤ d ∧ tol < |f 0| := by
  refine ⟨fun x => 5 - x, 5, 1 / 4, 1, fun a b h => by simp only; linarith, ?_, by norm_num, by norm_num,
    by norm_num⟩
  intro mu h
  rw [abs_sub_comm]
  exact lt_of_le_of_lt h (by norm_num)

/-- NaN count: the hypothesis of `C01_nan_throws` -/
example : ∀ mu : NaNRat, (Arith.abs ((fun _ => NaNRat.nan) mu) <ᶠ (NaNRat.num 1)) = false :=
  fun _ => rfl

/-- the negation law holds in the arithmetic with NaN -/
example : ∀ e mu : NaNRat, lit (-1) *ᶠ (e -ᶠ mu) = mu -ᶠ e := by
  intro e mu
  cases e <;> cases mu <;> simp [Arith.lit, Arith.mul, Arith.sub, NaNRat.map2]

end Examples

end Nlcg
