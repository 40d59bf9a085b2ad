import Verif.Props.Sensitive

/-!
# C111: more electrons, higher Fermi level
-/

namespace Nlcg
open Spec Real Arith

variable {K : ℕ} {b : Fin K → ℕ}

/-- **C111.** Fermi-Dirac, Gauss or spline smearing: two successful searches on the same bands, the second for more
electrons. The numbers of electrons of a calculation are integers, so they differ by more than two tolerances. Then the
chemical potential of the second is higher, and no state loses charge. -/
theorem C111_fermi_level {t : SmearType} {p p' : OccParams ℝ} {key : Fin K → Key} {wk : Fin K → ℝ}
    {ek : Bands b} {mu mu' : ℝ} {f f' : Bands b} (ht : Monotonic t) (hk : Function.Injective key)
    (hT : 0 < p.T) (hT' : p'.T = p.T) (ho : 0 ≤ p.occ) (ho' : p'.occ = p.occ) (hw : ∀ k, 0 ≤ wk k)
    (hne : p.ne + p.tol + p'.tol ≤ p'.ne)
    (h : searchOcc false t p key wk ek = .ok (mu, f)) (h' : searchOcc false t p' key wk ek = .ok (mu', f')) :
    mu < mu' ∧ ∀ k i, f k i ≤ f' k i := by
  obtain ⟨hc, hf⟩ := searchOcc_charge hk h
  obtain ⟨hc', hf'⟩ := searchOcc_charge hk h'
  have hkT : 0 < (kB : ℝ) * p.T := mul_pos kB_pos hT
  rw [hT', ho'] at hf'
  rw [abs_lt] at hc hc'
  have hmu : mu < mu' := by
    by_contra hle
    rw [not_lt] at hle
    have : ∑ k, wk k * ∑ i, f' k i ≤ ∑ k, wk k * ∑ i, f k i :=
      Finset.sum_le_sum fun k _ => mul_le_mul_of_nonneg_left (Finset.sum_le_sum fun i _ => by
        rw [hf, hf']
        exact C07_occupation_monotone t ht _ _ _ ho
          (div_le_div_of_nonneg_right (sub_le_sub_right hle _) hkT.le)) (hw k)
    linarith
  refine ⟨hmu, fun k i => ?_⟩
  rw [hf, hf']
  exact C07_occupation_monotone t ht _ _ _ ho (div_le_div_of_nonneg_right (by linarith) hkT.le)

/-- **C111** on several ranks: however the k-points are distributed, all ranks obtain the higher chemical potential. -/
theorem C111_ranks {t : SmearType} {p p' : OccParams ℝ} {key : Fin K → Key} {wk : Fin K → ℝ}
    {ek : Bands b} {mu mu' : ℝ} {f f' : Bands b} (ht : Monotonic t) (hk : Function.Injective key)
    (hT : 0 < p.T) (hT' : p'.T = p.T) (ho : 0 ≤ p.occ) (ho' : p'.occ = p.occ) (hw : ∀ k, 0 ≤ wk k)
    (hne : p.ne + p.tol + p'.tol ≤ p'.ne)
    (h : searchOcc false t p key wk ek = .ok (mu, f)) (h' : searchOcc false t p' key wk ek = .ok (mu', f'))
    (ndebug : Bool) (d d' : Spec.Dist ℝ) (hd : d.Proper) (hd' : d'.Proper)
    (hs : d.Same (oneRank key wk ek)) (hs' : d'.Same (oneRank key wk ek))
    (hq : ndebug = true ∨ ∀ r ∈ d, ∀ q ∈ r, q.energies ≠ [])
    (hq' : ndebug = true ∨ ∀ r ∈ d', ∀ q ∈ r, q.energies ≠ []) :
    mu < mu' ∧
    occupationFromMvector ndebug false (smearFns .gauss) (smearFns t) p d.energies d.weights =
      .ok (d.energies.map fun x => .ok (mu, occupy (smearFns t) mu (lit kB *ᶠ p.T) p.occ x)) ∧
    occupationFromMvector ndebug false (smearFns .gauss) (smearFns t) p' d'.energies d'.weights =
      .ok (d'.energies.map fun x => .ok (mu', occupy (smearFns t) mu' (lit kB *ᶠ p'.T) p'.occ x)) :=
  ⟨(C111_fermi_level ht hk hT hT' ho ho' hw hne h h').1,
    searchOcc_distributed ndebug false t p key wk ek d hd hs hq mu f h,
    searchOcc_distributed ndebug false t p' key wk ek d' hd' hs' hq' mu' f' h'⟩

/-- one level at zero, Fermi-Dirac, one electron and two electrons: both searches succeed -/
theorem moreElectrons_demo : ∃ (mu mu' : ℝ) (f f' : Bands fun _ : Fin 1 => 1),
    searchOcc false .fermiDirac { wideP with ne := 1 } (fun _ : Fin 1 => toLex (0, 0)) (fun _ => 1) (fun _ => ![0]) =
      .ok (mu, f) ∧
    searchOcc false .fermiDirac wideP (fun _ : Fin 1 => toLex (0, 0)) (fun _ => 1) (fun _ => ![0]) = .ok (mu', f') ∧
    mu < mu' := by
  have hN : ∀ mu : ℝ, kSum id fdFn
      (KMap.ofRange (oneRank (fun _ : Fin 1 => toLex (0, 0)) (fun _ => 1) (fun _ => ![(0 : ℝ)])).energies.flatten)
      (KMap.ofRange (oneRank (fun _ : Fin 1 => toLex (0, 0)) (fun _ => 1) (fun _ => ![(0 : ℝ)])).weights.flatten)
      wideP.T 2 mu = fdFn (mu / (1 / 1000)) 2 := by
    intro mu
    rw [kSum_oneRank id _ (Function.injective_of_subsingleton _), wideP_kT]
    simp
  have h0 : fdFn ((0 : ℝ) / (1 / 1000)) 2 = 1 := by norm_num [fdFn]
  have h1 : fdFn ((1 / 8 : ℝ) / (1 / 1000)) 2 = 2 := by norm_num [fdFn]
  have e1 : searchOcc false .fermiDirac { wideP with ne := 1 } (fun _ : Fin 1 => toLex (0, 0)) (fun _ => 1)
      (fun _ => ![0]) = .ok (0, occs .fermiDirac wideP.T 2 (fun _ => ![0]) 0) := by
    rw [searchOcc_global]
    have : globalSearch false (smearFns .gauss) (smearFns .fermiDirac) { wideP with ne := 1 }
        (oneRank (fun _ : Fin 1 => toLex (0, 0)) (fun _ => 1) (fun _ => ![(0 : ℝ)])) = .ok 0 := by
      simp only [globalSearch, Bool.false_eq_true, if_false, chemPotGathered]
      refine findChemPotRun_zero ?_ (by norm_num [wideP])
      have := hN 0
      rw [h0] at this
      simp only [smearFns]
      simp only [wideP, real_lit, real_sub, Rat.cast_zero] at this ⊢
      rw [this]
      norm_num
    rw [this]
    rfl
  have e2 : searchOcc false .fermiDirac wideP (fun _ : Fin 1 => toLex (0, 0)) (fun _ => 1)
      (fun _ => ![0]) = .ok (1 / 8, occs .fermiDirac wideP.T 2 (fun _ => ![0]) (1 / 8)) := by
    rw [searchOcc_global]
    have : globalSearch false (smearFns .gauss) (smearFns .fermiDirac) wideP
        (oneRank (fun _ : Fin 1 => toLex (0, 0)) (fun _ => 1) (fun _ => ![(0 : ℝ)])) = .ok (1 / 8) := by
      simp only [globalSearch, Bool.false_eq_true, if_false, chemPotGathered]
      have hne : wideP.ne = 2 := rfl
      have hocc : wideP.occ = 2 := rfl
      have htol : wideP.tol = 1 / 10 ^ 11 := rfl
      simp only [smearFns, hne, hocc, htol]
      have hf : ∀ mu : ℝ, (2 : ℝ) -ᶠ kSum id fdFn
        (KMap.ofRange (oneRank (fun _ : Fin 1 => toLex (0, 0)) (fun _ => 1) (fun _ => ![(0 : ℝ)])).energies.flatten)
        (KMap.ofRange (oneRank (fun _ : Fin 1 => toLex (0, 0)) (fun _ => 1) (fun _ => ![(0 : ℝ)])).weights.flatten)
        wideP.T 2 mu = 2 - fdFn (mu / (1 / 1000)) 2 := fun mu => by rw [hN]; rfl
      simp only [hf]
      have g0 : (fun mu : ℝ => 2 - fdFn (mu / (1 / 1000)) 2) 0 = 1 := by simp only [h0]; norm_num
      have g1 : (fun mu : ℝ => 2 - fdFn (mu / (1 / 1000)) 2) (1 / 8) = 0 := by simp only [h1]; norm_num
      generalize (fun mu : ℝ => 2 - fdFn (mu / (1 / 1000)) 2) = F at g0 g1
      have g1' : F 8⁻¹ = 0 := by rw [← g1]; norm_num
      have b : cpBody F (cpInit (lit 0)) = { mu := 1 / 8, de := 1 / 8, sp := 1, s := 1, counter := 1 } := by
        simp [cpBody, cpInit, g0]
        norm_num
      rw [findChemPotRun, findChemPot, cpNmax, whileFuel]
      rw [if_pos (by simp [cpGuard, cpInit, g0, cpNmax]; norm_num), b, whileFuel,
        if_neg (by simp [cpGuard, g1'])]
      simp [cpFinish, g1']
    rw [this]
    rfl
  refine ⟨_, _, _, _, e1, e2, by norm_num⟩

end Nlcg
