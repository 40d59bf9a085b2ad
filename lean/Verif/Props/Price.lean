import Verif.Props.Heating
import Verif.Props.MoreElectrons

/-!
# C130: the chemical potential is the price of an electron
-/

namespace Nlcg
open Spec Real

variable {K : ℕ} {b : Fin K → ℕ} {wk : Fin K → ℝ}

/-- **C130 (textbook formulas).** The same bands with two numbers of electrons: the free energy changes by at least the
first and at most the second chemical potential per electron. -/
theorem C130_exact {t : SmearType} (ht : Monotonic t) {mo : ℝ} (h0 : 0 ≤ mo) (hw : ∀ k, 0 ≤ wk k) {T : ℝ}
    (hT : 0 < T) (e : Bands b) (mu mu' : ℝ) :
    mu * (exactElectrons t T mo wk e mu' - exactElectrons t T mo wk e mu)
      ≤ exactFreeEnergy t T mo wk e mu' - exactFreeEnergy t T mo wk e mu ∧
    exactFreeEnergy t T mo wk e mu' - exactFreeEnergy t T mo wk e mu
      ≤ mu' * (exactElectrons t T mo wk e mu' - exactElectrons t T mo wk e mu) := by
  have a := grand_exact ht h0 hw (T := T) hT e mu mu'
  have a' := grand_exact ht h0 hw (T := T) hT e mu' mu
  rw [exactFreeEnergy_eq, exactFreeEnergy_eq]
  constructor <;> linarith

/-- **C130.** Two successful searches on the same bands for different numbers of electrons: between the two chemical
potentials per electron lies what the additional electrons cost, up to the charge tolerances and some `1e-13` per band from
the cut-offs. -/
theorem C130_search {t : SmearType} {p p' : OccParams ℝ} {key : Fin K → Key} {ek : Bands b} {mu mu' : ℝ} {f f' : Bands b}
    (ht : Monotonic t) (hk : Function.Injective key) (hT : 0 < p.T) (hT' : p'.T = p.T) (ho : 0 ≤ p.occ)
    (ho' : p'.occ = p.occ) (hs : t = .gaussianSpline → p.occ = 1) (hw : ∀ k, 0 ≤ wk k)
    (h : searchOcc false t p key wk ek = .ok (mu, f)) (h' : searchOcc false t p' key wk ek = .ok (mu', f'))
    {η ε : ℝ} (hη : η = p.tol + p'.tol) (hε : ε = kB * p.T * (p.occ * slack t * ∑ k, wk k * b k)) :
    mu * (p'.ne - p.ne) - |mu| * η - ε ≤ bandFree t p.T p.occ wk ek mu' - bandFree t p.T p.occ wk ek mu ∧
    bandFree t p.T p.occ wk ek mu' - bandFree t p.T p.occ wk ek mu ≤ mu' * (p'.ne - p.ne) + |mu'| * η + ε := by
  have hf := (searchOcc_ok h).2
  have hf' := (searchOcc_ok h').2
  have hc := (searchOcc_charge hk h).1
  have hc' := (searchOcc_charge hk h').1
  rw [hT', ho'] at hf'
  have hN : |(electrons wk f' - electrons wk f) - (p'.ne - p.ne)| ≤ η := by
    rw [hη]
    unfold electrons
    rw [abs_lt] at hc hc'
    rw [abs_le]
    constructor <;> linarith [hc.1, hc.2, hc'.1, hc'.2]
  have hm : ∀ m : ℝ, |m * ((electrons wk f' - electrons wk f) - (p'.ne - p.ne))| ≤ |m| * η := fun m => by
    rw [abs_mul]
    exact mul_le_mul_of_nonneg_left hN (abs_nonneg _)
  have a := grand_code ht ho hs hw (T := p.T) hT ek mu mu'
  have a' := grand_code ht ho hs hw (T := p.T) hT ek mu' mu
  rw [← hf, ← hf', ← hε] at a a'
  rw [bandFree, bandFree, ← hf, ← hf']
  have c1 := abs_le.1 (hm mu)
  have c2 := abs_le.1 (hm mu')
  constructor <;> linarith [c1.1, c2.2]

/-- **C130 (part).** For every smearing, as long as no level is cut off: the free energy changes with the chemical
potential at `mu` times the rate at which the number of electrons does.
Missing: the Gaussian spline with a maximal occupancy other than 1, where it is false. -/
theorem C130_marginal_partial (t : SmearType) {T mo : ℝ} (hT : 0 < T) (e : Bands b) (mu : ℝ)
    (hi : ∀ k i, (mu - e k i) / (kB * T) ∈ inside t ∩ insideDelta t) (hs : t = .gaussianSpline → mo = 1) :
    ∃ D, HasDerivAt (fun m => electrons wk (occs t T mo e m)) D mu ∧
      HasDerivAt (fun m => bandFree t T mo wk e m) (mu * D) mu := by
  have hk : kB * T ≠ 0 := (mul_pos kB_pos hT).ne'
  have hx : ∀ k i, HasDerivAt (fun m => (m - e k i) / (kB * T)) (1 / (kB * T)) mu := fun k i =>
    ((hasDerivAt_id mu).sub_const _).div_const _
  have h1 : ∀ k i, HasDerivAt (fun m => (smearFns t).fn ((m - e k i) / (kB * T)) mo)
      ((smearFns t).delta ((mu - e k i) / (kB * T)) mo * (1 / (kB * T))) mu := fun k i =>
    HasDerivAt.comp (h₂ := fun y => (smearFns t).fn y mo) (h := fun m => (m - e k i) / (kB * T)) mu
      (C08_delta_is_derivative t mo _ (hi k i).1) (hx k i)
  have h2 : ∀ k i, HasDerivAt (fun m => (smearFns t).entropy ((m - e k i) / (kB * T)) mo)
      (-((mu - e k i) / (kB * T)) * (smearFns t).delta ((mu - e k i) / (kB * T)) mo * (1 / (kB * T))) mu := fun k i =>
    HasDerivAt.comp (h₂ := fun y => (smearFns t).entropy y mo) (h := fun m => (m - e k i) / (kB * T)) mu
      (C10_entropy_derivative_partial t mo _ (hi k i).2 hs) (hx k i)
  refine ⟨∑ k, wk k * ∑ i, (smearFns t).delta ((mu - e k i) / (kB * T)) mo * (1 / (kB * T)), ?_, ?_⟩
  · exact HasDerivAt.fun_sum fun k _ => (HasDerivAt.fun_sum fun i _ => h1 k i).const_mul _
  · have h3 : HasDerivAt (fun m => levelSum wk e (occs t T mo e m))
        (∑ k, wk k * ∑ i, e k i * ((smearFns t).delta ((mu - e k i) / (kB * T)) mo * (1 / (kB * T)))) mu :=
      HasDerivAt.fun_sum fun k _ => (HasDerivAt.fun_sum fun i _ => (h1 k i).const_mul (e k i)).const_mul _
    have h4 : HasDerivAt (fun m => entropySum t T mo wk e m) (∑ k, wk k * ∑ i,
        -((mu - e k i) / (kB * T)) * (smearFns t).delta ((mu - e k i) / (kB * T)) mo * (1 / (kB * T))) mu :=
      HasDerivAt.fun_sum fun k _ => (HasDerivAt.fun_sum fun i _ => h2 k i).const_mul _
    refine (h3.sub (h4.const_mul (kB * T))).congr_deriv ?_
    simp only [Finset.mul_sum, ← Finset.sum_sub_distrib]
    refine Finset.sum_congr rfl fun k _ => Finset.sum_congr rfl fun i _ => ?_
    field_simp
    ring

/-- **C130 is false for the Gaussian spline with a maximal occupancy other than 1**, already for one level: the free energy
does not change at the rate of the chemical potential. -/
theorem C130_not_gaussian_spline {T mo mu : ℝ} (hT : 0 < T) (hmo : mo ≠ 1) (h0 : mu ≠ 0) (h7 : |mu / (kB * T)| < 7) :
    ∃ D, HasDerivAt (fun m => electrons (fun _ => 1) (occs .gaussianSpline T mo (fun (_ : Fin 1) (_ : Fin 1) => 0) m)) D mu ∧
      ¬ HasDerivAt (fun m => bandFree .gaussianSpline T mo (fun _ => 1) (fun (_ : Fin 1) (_ : Fin 1) => 0) m) (mu * D) mu := by
  have hk : kB * T ≠ 0 := (mul_pos kB_pos hT).ne'
  have hx : HasDerivAt (fun m => m / (kB * T)) (1 / (kB * T)) mu := (hasDerivAt_id mu).div_const _
  have hin : mu / (kB * T) ∈ inside .gaussianSpline := abs_lt.1 h7
  refine ⟨(smearFns .gaussianSpline).delta (mu / (kB * T)) mo * (1 / (kB * T)), ?_, fun h => ?_⟩
  · have := (C08_delta_is_derivative .gaussianSpline mo _ hin).comp mu hx
    refine this.congr_of_eventuallyEq (Filter.Eventually.of_forall fun m => ?_)
    simp [electrons, occs]
  · refine C10_not_gaussian_spline mo (mu / (kB * T)) hmo h7 (div_ne_zero h0 hk) ?_
    have hy : HasDerivAt (fun y => kB * T * y) (kB * T) (mu / (kB * T)) := by
      simpa using (hasDerivAt_id (mu / (kB * T))).const_mul (kB * T)
    have e1 : kB * T * (mu / (kB * T)) = mu := mul_div_cancel₀ mu hk
    rw [← e1] at h
    have := (h.comp (mu / (kB * T)) hy).const_mul (-(1 / (kB * T)))
    refine HasDerivAt.congr_deriv (this.congr_of_eventuallyEq (Filter.Eventually.of_forall fun y => ?_)) ?_
    · simp only [Function.comp, bandFree, levelSum, entropySum, zero_mul, Finset.univ_unique, Finset.sum_singleton, mul_zero,
        zero_sub, one_mul, sub_zero]
      rw [mul_div_cancel_left₀ y hk]
      generalize kB * T = c at hk
      field_simp
    · rw [e1]
      generalize kB * T = c at hk
      field_simp

/-- both searches of C130 succeed: one level, Fermi-Dirac, one and two electrons -/
example : ∃ (mu mu' : ℝ) (f f' : Bands fun _ : Fin 1 => 1),
    searchOcc false .fermiDirac { wideP with ne := 1 } (fun _ : Fin 1 => toLex (0, 0)) (fun _ => 1) (fun _ => ![0]) =
      .ok (mu, f) ∧
    searchOcc false .fermiDirac wideP (fun _ : Fin 1 => toLex (0, 0)) (fun _ => 1) (fun _ => ![0]) = .ok (mu', f') ∧
    bandFree (K := 1) .fermiDirac wideP.T wideP.occ (fun _ => 1) (fun _ => ![0]) mu'
        - bandFree (K := 1) .fermiDirac wideP.T wideP.occ (fun _ => 1) (fun _ => ![0]) mu
      ≤ mu' * (wideP.ne - 1) + |mu'| * (wideP.tol + wideP.tol)
        + kB * wideP.T * (wideP.occ * slack .fermiDirac * ∑ _k : Fin 1, 1 * ((1 : ℕ) : ℝ)) := by
  obtain ⟨mu, mu', f, f', h, h', -⟩ := moreElectrons_demo
  have hT : 0 < wideP.T := by
    have h1 := wideP_kT
    have h2 := kB_pos
    by_contra h3
    nlinarith
  exact ⟨mu, mu', f, f', h, h', (C130_search (p := { wideP with ne := 1 }) (p' := wideP) (t := .fermiDirac) trivial
    (Function.injective_of_subsingleton _) hT rfl (by norm_num [wideP]) rfl (by simp) (fun _ => by norm_num) h h' rfl rfl).2⟩

/-- no level is cut off: levels at -1 and 1 Hartree, Methfessel-Paxton -/
example : ∀ (k : Fin 1) (i : Fin 2), (0 - (fun _ => ![(-1 : ℝ), 1] : Bands fun _ : Fin 1 => 2) k i) / (kB * 300)
    ∈ inside .methfesselPaxton ∩ insideDelta .methfesselPaxton := fun _ _ => ⟨trivial, trivial⟩

end Nlcg
