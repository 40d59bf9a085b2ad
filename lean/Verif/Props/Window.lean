import Verif.Proofs.CountWindow
import Verif.Props.ChemPot
import Mathlib.Analysis.Complex.ExponentialBounds

/-!
# C63: a chemical potential is found for every physical band structure

Exact arithmetic.
-/

namespace Nlcg
open Real Spec

/-- Fermi-Dirac, Gaussian spline, Gauss. If the electron number lies between 0 and the number of
electrons that fit into the bands (both included), the cut-off error of all bands and the charge
in a window of half-width `10^-60` stay below the tolerance, and the bands lie within `10^9` of 0,
then the call does not run out of steps: every rank returns the same chemical potential, with
occupations whose charge is within the tolerance. The only escape is a chemical potential whose
charge deviates by the tolerance exactly. -/
theorem C63_chemical_potential_found (ndebug : Bool) (t : SmearType) (ht : Monotonic t)
    (p : OccParams ℝ) (d : Spec.Dist ℝ) (hd : d.Proper)
    (hdbg : ndebug = true ∨ ∀ r ∈ d, ∀ q ∈ r, q.energies ≠ [])
    (hw : ∀ q ∈ d.flatten, 0 ≤ q.weight) (hT : 0 < p.T) (hocc : 0 ≤ p.occ)
    (hne0 : 0 ≤ p.ne) (hne1 : p.ne ≤ capacity d p.occ)
    (E : ℝ) (hE0 : 0 ≤ E) (hE : ∀ q ∈ d.flatten, ∀ e ∈ q.energies, |e| ≤ E)
    (hrange : E + 36 * (kB * p.T) ≤ 10 ^ 9)
    (htol : 2 * (capacity d p.occ * exp (-35))
      + capacity d p.occ * (10 : ℝ)⁻¹ ^ 60 / (kB * p.T) < p.tol) :
    (∃ (mu : ℝ) (fs : List (KMap Key (List ℝ))),
      occupationFromMvector ndebug t.nonMonotonous (smearFns .gauss) (smearFns t) p
        d.energies d.weights = .ok (fs.map fun f => .ok (mu, f)) ∧
      fs.length = d.length ∧ |p.ne - totalCharge d fs| < p.tol) ∨
    ∃ mu, |p.ne - totalCharge d (d.energies.map
      (occupy (smearFns t) mu (kB * p.T) p.occ))| = p.tol := by
  have hnm : t.nonMonotonous = false := by cases t <;> first | rfl | exact ht.elim
  obtain ⟨g, hg⟩ := exists_ideal t ht
  have hkT : (0 : ℝ) < kB * p.T := mul_pos kB_pos hT
  obtain ⟨m, hm, hwin⟩ := exists_window hg d hw hkT hocc hE hE0 hne0 hne1 htol
  have hcount : ∀ mu, kSum id (smearFns t).fn (KMap.ofRange d.energies.flatten)
      (KMap.ofRange d.weights.flatten) p.T p.occ mu
      = bandSum d (fun e => (smearFns t).fn ((mu - e) / (kB * p.T)) p.occ) :=
    fun mu => kSum_dist _ _ _ hd _ _ _
  have hanti : Antitone fun mu => p.ne - kSum id (smearFns t).fn (KMap.ofRange d.energies.flatten)
      (KMap.ofRange d.weights.flatten) p.T p.occ mu := fun a b hab =>
    sub_le_sub_left (C07_count_monotone t ht d hd hw p.T p.occ hT hocc hab) _
  have h3 := C03_search_succeeds _ 0 p.tol m ((10 : ℝ)⁻¹ ^ 60) hanti
    (fun mu hmu => by rw [hcount]; exact hwin mu hmu) (by rw [sub_zero]; linarith) le_rfl
  obtain ⟨outs, hrun, hcase⟩ :=
    C01_charge_conserved ndebug (smearFns .gauss) (smearFns t) p d hd hdbg
  rw [hnm]
  rcases hcase with ⟨mu, fs, ho, hl, hc⟩ | hthrow
  · left; exact ⟨mu, fs, by rw [hrun, ho], hl, hc⟩
  · rcases h3 with ⟨mu, hmu, hlt⟩ | ⟨_, mu, hmu⟩
    · left
      refine ⟨mu, d.energies.map (occupy (smearFns t) mu (kB * p.T) p.occ), ?_,
        by simp [Dist.energies], ?_⟩
      · rw [occupation_eq _ _ _ _ _ _ hd hdbg]
        have hs : globalSearch false (smearFns .gauss) (smearFns t) p d = .ok mu := by
          refine Eq.trans ?_ hmu
          simp [globalSearch, chemPotGathered]
        rw [hs, List.map_map]; rfl
      · rw [totalCharge_occupy]; rw [hcount] at hlt; exact hlt
    · right
      refine ⟨mu, ?_⟩
      rw [totalCharge_occupy]; rw [hcount] at hmu; exact hmu

/-- one k-point with two bands at -1 and 1, Fermi-Dirac at 300 K, two electrons, tolerance of the
code -/
example : ∃ (p : OccParams ℝ) (d : Spec.Dist ℝ) (E : ℝ), d.Proper ∧
    (∀ r ∈ d, ∀ q ∈ r, q.energies ≠ []) ∧ (∀ q ∈ d.flatten, 0 ≤ q.weight) ∧ 0 < p.T ∧ 0 ≤ p.occ ∧
    0 ≤ p.ne ∧ p.ne ≤ capacity d p.occ ∧ 0 ≤ E ∧ (∀ q ∈ d.flatten, ∀ e ∈ q.energies, |e| ≤ E) ∧
    E + 36 * (kB * p.T) ≤ 10 ^ 9 ∧ 2 * (capacity d p.occ * exp (-35))
      + capacity d p.occ * (10 : ℝ)⁻¹ ^ 60 / (kB * p.T) < p.tol ∧ p.tol = 1 / 10 ^ 11 := by
  have hc : capacity [[{ key := (0, 0), weight := 1, energies := [-1, 1] }]] 2 = 4 := by
    simp [capacity]; norm_num
  have he : exp (-35) ≤ 1 / 10 ^ 14 := by
    have h1 : (2.7 : ℝ) ≤ exp 1 := by linarith [exp_one_gt_d9]
    have h2 : (2.7 : ℝ) ^ 35 ≤ exp 1 ^ 35 := pow_le_pow_left₀ (by norm_num) h1 35
    have h3 : exp 1 ^ 35 = exp 35 := by rw [← exp_nat_mul]; norm_num
    rw [h3] at h2
    rw [exp_neg, one_div]
    exact inv_anti₀ (by norm_num) (le_trans (by norm_num) h2)
  refine ⟨{ T := 300, occ := 2, ne := 2, tol := 1 / 10 ^ 11 },
    [[{ key := (0, 0), weight := 1, energies := [-1, 1] }]], 1, ?_, ?_, ?_, ?_, ?_, ?_, ?_, ?_, ?_,
    ?_, ?_, rfl⟩
  · exact List.nodup_singleton _
  · simp
  · simp
  · norm_num
  · norm_num
  · norm_num
  · rw [hc]; norm_num
  · norm_num
  · simp
  · simp only [kB]; norm_num
  · rw [hc]; simp only [kB]; norm_num at he ⊢; linarith

end Nlcg
