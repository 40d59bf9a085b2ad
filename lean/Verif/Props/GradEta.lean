import Verif.Proofs.GradEta

/-!
# C15: the gradient with respect to the pseudo-Hamiltonian

`N` k-points (of all ranks), `n k` bands at k-point `k`, weights `w k`, pseudo-energies `e k i`,
orbital energies `h k i` (the host's band energies; `hij k` is `w k * X^H H X`, so its diagonal is
`w k * h k i`), chemical potential `mu`, temperature `T`, maximal occupancy `mo`. Pseudo-energies
move along `e + s * d` in an arbitrary direction `d`.
-/

namespace Nlcg
open Real Spec

variable {N : ℕ} {n : Fin N → ℕ}

/-- the diagonal entry `(i, i)` of k-point `k` of the gradient the code computes -/
noncomputable abbrev codeGrad (t : SmearType) (T mo : ℝ) (w : Fin N → ℝ) (e h f : Bands n)
    (hij : (k : Fin N) → Matrix (Fin (n k)) (Fin (n k)) ℂ) (mu : ℝ) (k : Fin N)
    (i : Fin (n k)) : ℂ :=
  gEta (smearFns t) T (hij k) mu (w k) (e k) (f k) (dmuDeta (smearFns t) e w mu T mo)
    (dFdmu (smearFns t) h e w mu T mo) mo i i

/-- **C15.** The diagonal of the eta gradient is the derivative of the free energy with respect to
the pseudo-energies at fixed number of electrons, in every direction and for every way of adapting
the chemical potential that keeps the number of electrons. Missing: cold smearing
(`C15_not_cold`), Gaussian spline with occupancy other than 1 (`C15_not_gaussian_spline`), cut-off
arguments, and the branch below the threshold `1e-12` (`C15_below_threshold`). -/
theorem C15_eta_gradient_partial (t : SmearType) (ht : t ≠ .cold) (T mo : ℝ)
    (hgs : t = .gaussianSpline → mo = 1) (hT : 0 < T) (w : Fin N → ℝ) (e h f d : Bands n)
    (hij : (k : Fin N) → Matrix (Fin (n k)) (Fin (n k)) ℂ)
    (hdiag : ∀ k i, hij k i i = ((w k * h k i : ℝ) : ℂ)) (mu : ℝ)
    (hin : ∀ k i, (mu - e k i) / (kB * T) ∈ inside t)
    (hD : 1 / 10 ^ 12 ≤ |dmuDeta (smearFns t) e w mu T mo|)
    (E : Bands n → ℝ) (hE : OrbitalEnergies w h E (occs t T mo e mu))
    (m : ℝ → ℝ) (hm : FixedCharge t T mo w e d mu m) :
    HasDerivAt (fun s => freeEnergy t T mo w E (e + s • d) (m s))
      (∑ k, ∑ i, (codeGrad t T mo w e h f hij mu k i).re * d k i) 0
    ∧ ∀ k i, (codeGrad t T mo w e h f hij mu k i).im = 0 := by
  have hkT : (kB : ℝ) * T ≠ 0 := (mul_pos kB_pos hT).ne'
  have hmd := hm.smooth.hasDerivAt
  have h1 := hasDerivAt_freeEnergy_fixed t T mo hgs hT w e d h mu hmd hm hin E hE
  have hc := charge_deriv t T mo hT w e d hmd hm hin
  have hg := fun k i => gEta_diag t ht T (hij k) mu (w k) (e k) (f k) (h k)
    (dmuDeta (smearFns t) e w mu T mo) (dFdmu (smearFns t) h e w mu T mo) mo i (hdiag k i)
  refine ⟨?_, fun k i => by rw [codeGrad, hg]; exact Complex.ofReal_im _⟩
  refine hd_to h1 (fun _ => rfl) ?_
  simp only [codeGrad, hg, Complex.ofReal_re, if_neg (not_lt.2 hD)]
  rw [dmuDeta_eq t ht] at hD ⊢
  have hD0 : deltaSum t T mo w e mu ≠ 0 := by
    intro h0; rw [h0, abs_zero] at hD; norm_num at hD
  rw [dFdmu_eq t ht]
  generalize deriv m 0 = m' at hc ⊢
  have hm' : m' * deltaSum t T mo w e mu
      = ∑ k, w k * ∑ i, (smearFns t).delta ((mu - e k i) / (kB * T)) mo * d k i := by
    rw [← sub_eq_zero, ← hc, deltaSum, Finset.mul_sum, ← Finset.sum_sub_distrib]
    refine Finset.sum_congr rfl fun k _ => ?_
    rw [mul_left_comm, ← mul_sub, Finset.mul_sum, ← Finset.sum_sub_distrib]
    congr 1
    exact Finset.sum_congr rfl fun i _ => by ring
  have hm'' : m' = (∑ k, w k * ∑ i, (smearFns t).delta ((mu - e k i) / (kB * T)) mo * d k i)
      / deltaSum t T mo w e mu := by rw [← hm', mul_div_cancel_right₀ _ hD0]
  obtain ⟨F, hF⟩ : ∃ F, F = ∑ k, w k * ∑ i, (smearFns t).delta ((mu - e k i) / (kB * T)) mo
    * (h k i - e k i) := ⟨_, rfl⟩
  rw [← hF]
  have hsplit : (∑ k, w k * ∑ i, (smearFns t).delta ((mu - e k i) / (kB * T)) mo * (m' - d k i)
      * (h k i - e k i)) = m' * F - ∑ k, w k * ∑ i,
        (smearFns t).delta ((mu - e k i) / (kB * T)) mo * d k i * (h k i - e k i) := by
    rw [hF, Finset.mul_sum, ← Finset.sum_sub_distrib]
    refine Finset.sum_congr rfl fun k _ => ?_
    rw [mul_left_comm, ← mul_sub, Finset.mul_sum (a := m'), ← Finset.sum_sub_distrib]
    congr 1
    exact Finset.sum_congr rfl fun i _ => by ring
  rw [hsplit, hm'']
  simp only [Finset.mul_sum, Finset.sum_mul, Finset.sum_div, ← Finset.sum_sub_distrib]
  refine Finset.sum_congr rfl fun k _ => Finset.sum_congr rfl fun i _ => ?_
  generalize (smearFns t).delta ((mu - e k i) / (kB * T)) mo = δ
  generalize (kB : ℝ) * T = c at hkT ⊢
  field_simp
  ring

/-- The chemical potential can be adapted: the hypothesis on `m` above can always be met. -/
theorem C15_fixed_charge_exists (t : SmearType) (ht : t ≠ .cold) (T mo : ℝ) (hT : 0 < T)
    (w : Fin N → ℝ) (e d : Bands n) (mu : ℝ) (hin : ∀ k i, (mu - e k i) / (kB * T) ∈ inside t)
    (hD : 1 / 10 ^ 12 ≤ |dmuDeta (smearFns t) e w mu T mo|) :
    ∃ m, FixedCharge t T mo w e d mu m := by
  refine exists_fixedCharge t T mo hT w e d mu hin ?_
  rw [dmuDeta_eq t ht] at hD
  intro h0; rw [h0, abs_zero] at hD; norm_num at hD

/-- **C15, below the threshold.** If the code skips the chemical potential term, the slope it
reports for a direction of size at most `M` is wrong by at most `1e-12 * B * M / kT`, where `B`
bounds the differences between orbital energies and pseudo-energies. -/
theorem C15_below_threshold (t : SmearType) (ht : Monotonic t) (T mo : ℝ)
    (hgs : t = .gaussianSpline → mo = 1) (hT : 0 < T) (hmo : 0 ≤ mo) (w : Fin N → ℝ)
    (hw : ∀ k, 0 ≤ w k) (e h f d : Bands n)
    (hij : (k : Fin N) → Matrix (Fin (n k)) (Fin (n k)) ℂ)
    (hdiag : ∀ k i, hij k i i = ((w k * h k i : ℝ) : ℂ)) (mu : ℝ)
    (hin : ∀ k i, (mu - e k i) / (kB * T) ∈ inside t)
    (hD : |dmuDeta (smearFns t) e w mu T mo| < 1 / 10 ^ 12)
    (E : Bands n → ℝ) (hE : OrbitalEnergies w h E (occs t T mo e mu))
    (B M : ℝ) (hB0 : 0 ≤ B) (hM0 : 0 ≤ M) (hM : ∀ k i, |d k i| ≤ M) (hB : ∀ k i, |h k i - e k i| ≤ B)
    (m : ℝ → ℝ) (hm : FixedCharge t T mo w e d mu m) :
    ∃ F', HasDerivAt (fun s => freeEnergy t T mo w E (e + s • d) (m s)) F' 0 ∧
      |F' - ∑ k, ∑ i, (codeGrad t T mo w e h f hij mu k i).re * d k i|
        ≤ 1 / 10 ^ 12 * B * M / (kB * T) := by
  have hkT : 0 < (kB : ℝ) * T := mul_pos kB_pos hT
  have htc : t ≠ .cold := by rintro rfl; exact ht
  have hmd := hm.smooth.hasDerivAt
  have h1 := hasDerivAt_freeEnergy_fixed t T mo hgs hT w e d h mu hmd hm hin E hE
  have hc := charge_deriv t T mo hT w e d hmd hm hin
  refine ⟨_, h1, ?_⟩
  have hg := fun k i => gEta_diag t htc T (hij k) mu (w k) (e k) (f k) (h k)
    (dmuDeta (smearFns t) e w mu T mo) (dFdmu (smearFns t) h e w mu T mo) mo i (hdiag k i)
  simp only [codeGrad, hg, Complex.ofReal_re, if_pos hD, add_zero]
  rw [dmuDeta_eq t htc] at hD
  generalize deriv m 0 = m' at hc ⊢
  have hδ := fun x => delta_nonneg t ht x mo hmo
  -- everything is bounded by the sum of deltas
  have hsum0 : 0 ≤ deltaSum t T mo w e mu :=
    Finset.sum_nonneg fun k _ => mul_nonneg (hw k) (Finset.sum_nonneg fun i _ => hδ _)
  rw [abs_of_nonneg hsum0] at hD
  set F := ∑ k, w k * ∑ i, (smearFns t).delta ((mu - e k i) / (kB * T)) mo * (h k i - e k i)
    with hF
  set G := ∑ k, w k * ∑ i, (smearFns t).delta ((mu - e k i) / (kB * T)) mo * d k i with hG
  have hm' : m' * deltaSum t T mo w e mu = G := by
    rw [← sub_eq_zero, ← hc, hG, deltaSum, Finset.mul_sum, ← Finset.sum_sub_distrib]
    refine Finset.sum_congr rfl fun k _ => ?_
    rw [mul_left_comm, ← mul_sub, Finset.mul_sum, ← Finset.sum_sub_distrib]
    congr 1
    exact Finset.sum_congr rfl fun i _ => by ring
  have hdiff : (∑ k, w k * ∑ i, (smearFns t).delta ((mu - e k i) / (kB * T)) mo * (m' - d k i)
        * (h k i - e k i)) / (kB * T)
      - ∑ k, ∑ i, -1 / (kB * T) * (w k * (h k i - e k i))
          * (smearFns t).delta ((mu - e k i) / (kB * T)) mo * d k i = m' * F / (kB * T) := by
    rw [hF, Finset.mul_sum, Finset.sum_div, Finset.sum_div, ← Finset.sum_sub_distrib]
    refine Finset.sum_congr rfl fun k _ => ?_
    rw [Finset.mul_sum, Finset.mul_sum, Finset.mul_sum, Finset.sum_div, Finset.sum_div,
      ← Finset.sum_sub_distrib]
    refine Finset.sum_congr rfl fun i _ => ?_
    generalize (smearFns t).delta ((mu - e k i) / (kB * T)) mo = δ
    generalize (kB : ℝ) * T = c at hkT ⊢
    field_simp
    ring
  rw [hdiff, abs_div, abs_of_pos hkT]
  refine div_le_div_of_nonneg_right ?_ hkT.le
  have bound : ∀ (v : Bands n) (C : ℝ), (∀ k i, |v k i| ≤ C) →
      |∑ k, w k * ∑ i, (smearFns t).delta ((mu - e k i) / (kB * T)) mo * v k i|
        ≤ deltaSum t T mo w e mu * C := by
    intro v C hv
    refine (Finset.abs_sum_le_sum_abs _ _).trans ?_
    rw [deltaSum, Finset.sum_mul]
    refine Finset.sum_le_sum fun k _ => ?_
    rw [abs_mul, abs_of_nonneg (hw k), mul_assoc]
    refine mul_le_mul_of_nonneg_left ?_ (hw k)
    refine (Finset.abs_sum_le_sum_abs _ _).trans ?_
    rw [Finset.sum_mul]
    refine Finset.sum_le_sum fun i _ => ?_
    rw [abs_mul, abs_of_nonneg (hδ _)]
    exact mul_le_mul_of_nonneg_left (hv k i) (hδ _)
  have hFb := bound _ B hB
  have hGb := bound _ M hM
  rw [← hF] at hFb
  rw [← hG, ← hm', abs_mul, abs_of_nonneg hsum0, mul_comm] at hGb
  rcases hsum0.eq_or_lt with h0 | hpos
  · rw [← h0, zero_mul] at hFb
    have hF0 : F = 0 := abs_eq_zero.1 (le_antisymm hFb (abs_nonneg _))
    rw [hF0, mul_zero, abs_zero]
    positivity
  · have hM' : |m'| ≤ M := le_of_mul_le_mul_left hGb hpos
    rw [abs_mul]
    calc |m'| * |F| ≤ M * (deltaSum t T mo w e mu * B) :=
          mul_le_mul hM' hFb (abs_nonneg _) hM0
      _ = deltaSum t T mo w e mu * (B * M) := by ring
      _ ≤ 1 / 10 ^ 12 * (B * M) := mul_le_mul_of_nonneg_right hD.le (mul_nonneg hB0 hM0)
      _ = _ := by ring

/-! ### Concrete cases -/

/-- Non-vacuity: two bands, Gaussian smearing, pseudo-energies at the chemical potential and
orbital energies away from it; all hypotheses of `C15_eta_gradient_partial` hold. -/
example : ∃ (w : Fin 1 → ℝ) (e h d : Bands two)
    (hij : (k : Fin 1) → Matrix (Fin (two k)) (Fin (two k)) ℂ) (E : Bands two → ℝ) (m : ℝ → ℝ),
    (∀ k i, hij k i i = ((w k * h k i : ℝ) : ℂ)) ∧
    (∀ k i, ((0 : ℝ) - e k i) / (kB * (kB : ℝ)⁻¹) ∈ inside .gauss) ∧
    1 / 10 ^ 12 ≤ |dmuDeta (smearFns .gauss) e w 0 (kB : ℝ)⁻¹ 1| ∧
    OrbitalEnergies w h E (occs .gauss (kB : ℝ)⁻¹ 1 e 0) ∧
    FixedCharge .gauss (kB : ℝ)⁻¹ 1 w e d 0 m := by
  have hD : 1 / 10 ^ 12 ≤ |dmuDeta (smearFns .gauss) (fun _ _ => 0 : Bands two) (fun _ => 1) 0
      (kB : ℝ)⁻¹ 1| := by
    have := gaussDelta_zero
    have he : dmuDeta (smearFns .gauss) (fun _ _ => 0 : Bands two) (fun _ => 1) 0 (kB : ℝ)⁻¹ 1
        = gaussDelta 0 1 + gaussDelta 0 1 := by
      simp only [dmuDeta, kB_inv, smearFns]
      simp [Fin.sum_univ_two]
      ring
    rw [he, abs_of_nonneg (by linarith)]
    exact le_trans (by norm_num) (show (1 : ℝ) / 2 ≤ gaussDelta 0 1 + gaussDelta 0 1 by linarith)
  obtain ⟨m, hm⟩ := C15_fixed_charge_exists .gauss (by simp) (kB : ℝ)⁻¹ 1 (inv_pos.2 kB_pos)
    (fun _ => 1) (fun _ _ => 0 : Bands two) (fun _ => ![1, 0]) 0 (fun _ _ => Set.mem_univ _) hD
  exact ⟨fun _ => 1, fun _ _ => 0, fun _ => ![1, 3], fun _ => ![1, 0],
    fun _ => Matrix.of fun i _ => (![(1 : ℂ), 3] : Fin 2 → ℂ) i, _, m,
    fun _ i => by fin_cases i <;> simp, fun _ _ => Set.mem_univ _, hD,
    orbitalEnergies_band _ _ _, hm⟩

/-- **C15 fails for cold smearing.** The code evaluates the delta at `(e - mu)/kT`, but the cold
smearing delta is not even. Two bands suffice. -/
theorem C15_not_cold : ∃ (T mo mu : ℝ) (w : Fin 1 → ℝ) (e h f d : Bands two)
    (hij : (k : Fin 1) → Matrix (Fin (two k)) (Fin (two k)) ℂ) (E : Bands two → ℝ) (m : ℝ → ℝ),
    0 < T ∧ (∀ k i, hij k i i = ((w k * h k i : ℝ) : ℂ)) ∧
    (∀ k i, (mu - e k i) / (kB * T) ∈ inside .cold) ∧
    1 / 10 ^ 12 ≤ |dmuDeta (smearFns .cold) e w mu T mo| ∧
    OrbitalEnergies w h E (occs .cold T mo e mu) ∧ FixedCharge .cold T mo w e d mu m ∧
    ¬ HasDerivAt (fun s => freeEnergy .cold T mo w E (e + s • d) (m s))
      (∑ k, ∑ i, (codeGrad .cold T mo w e h f hij mu k i).re * d k i) 0 := by
  have hs2 : 0 < √(2 : ℝ) := by positivity
  have hs2' : √(2 : ℝ) < 2 := by rw [sqrt_lt' (by norm_num)]; norm_num
  -- the values of the delta
  have hz : coldDelta √2 1 = 0 := by
    rw [coldDelta, if_neg (by linarith), if_neg (by linarith)]
    simp only [mul_self_sqrt (show (0 : ℝ) ≤ 2 by norm_num), sub_self, mul_zero, zero_div]
  have hb : 0 < coldDelta 0 1 := by
    rw [coldDelta, if_neg (by norm_num), if_neg (by norm_num)]
    have := sqrtpi_pos
    simp only [mul_zero, sub_zero, one_mul]; positivity
  have hb' : (1 : ℝ) / 2 ≤ coldDelta 0 1 := by
    rw [coldDelta, if_neg (by norm_num), if_neg (by norm_num)]
    have h4 : √π ≤ 2 := by
      rw [sqrt_le_left (by norm_num)]; norm_num; exact pi_le_four
    have he : -(0 - 1 / √(2 : ℝ)) * (0 - 1 / √2) = -(1 / 2) := by
      linear_combination -inv_sqrt2_sq
    have hx : (1 : ℝ) / 2 ≤ exp (-(1 / 2)) := by
      have := add_one_le_exp (-(1 / 2 : ℝ)); linarith
    simp only [he, mul_zero, sub_zero, one_mul]
    rw [le_div_iff₀ sqrtpi_pos]; nlinarith
  have ha : 0 < coldDelta (-√2) 1 := by
    rw [coldDelta, if_neg (by linarith), if_neg (by linarith)]
    have := sqrtpi_pos
    have h4 : 2 - √(2 : ℝ) * -√2 = 4 := by
      rw [mul_neg, mul_self_sqrt (by norm_num)]; norm_num
    simp only [h4, one_mul]; positivity
  have hin : ∀ (k : Fin 1) (i : Fin (two k)),
      ((0 : ℝ) - (fun _ => ![-√2, 0] : Bands two) k i) / (kB * (kB : ℝ)⁻¹) ∈ inside .cold := by
    intro k i
    rw [kB_inv]
    fin_cases i
    · show (0 - -√2) / 1 ∈ Set.Ioo (-8 : ℝ) 8
      constructor <;> simp <;> linarith
    · show ((0 : ℝ) - 0) / 1 ∈ Set.Ioo (-8 : ℝ) 8
      constructor <;> simp
  have hsum : deltaSum .cold (kB : ℝ)⁻¹ 1 (fun _ => 1) (fun _ => ![-√2, 0] : Bands two) 0
      = coldDelta 0 1 := by
    simp only [deltaSum, kB_inv, smearFns]
    simp [Fin.sum_univ_two, hz]
  have hdmu : dmuDeta (smearFns .cold) (fun _ => ![-√2, 0] : Bands two) (fun _ => 1) 0
      (kB : ℝ)⁻¹ 1 = coldDelta (-√2) 1 + coldDelta 0 1 := by
    simp only [dmuDeta, kB_inv, smearFns]
    simp [Fin.sum_univ_two]
  have hD : 1 / 10 ^ 12 ≤ |dmuDeta (smearFns .cold) (fun _ => ![-√2, 0] : Bands two)
      (fun _ => 1) 0 (kB : ℝ)⁻¹ 1| := by
    rw [hdmu, abs_of_pos (by linarith)]
    exact le_trans (by norm_num) (show (1 : ℝ) / 2 ≤ _ by linarith)
  have hTpos : 0 < (kB : ℝ)⁻¹ := inv_pos.2 kB_pos
  obtain ⟨m, hm⟩ := exists_fixedCharge .cold (kB : ℝ)⁻¹ 1 hTpos (fun _ => 1)
    (fun _ => ![-√2, 0] : Bands two) (fun _ => ![1, 0]) 0 hin (by rw [hsum]; exact hb.ne')
  refine ⟨(kB : ℝ)⁻¹, 1, 0, fun _ => 1, fun _ => ![-√2, 0], fun _ => ![-√2 + 1, 0], fun _ _ => 0,
    fun _ => ![1, 0], fun _ => Matrix.of fun i _ => (![((-√2 + 1 : ℝ) : ℂ), 0] : Fin 2 → ℂ) i, _, m,
    hTpos, ?_, hin, hD, orbitalEnergies_band _ _ _, hm, ?_⟩
  · intro k i; fin_cases i <;> simp
  intro hcode
  have htrue := hasDerivAt_freeEnergy_fixed .cold (kB : ℝ)⁻¹ 1 (by simp) hTpos (fun _ => 1)
    (fun _ => ![-√2, 0] : Bands two) (fun _ => ![1, 0]) (fun _ => ![-√2 + 1, 0]) 0
    hm.smooth.hasDerivAt hm hin _ (orbitalEnergies_band _ _ _)
  have heq := hcode.unique htrue
  have hR : (∑ k : Fin 1, (1 : ℝ) * ∑ i : Fin 2, (smearFns .cold).delta
      ((0 - (![-√2, 0] : Fin 2 → ℝ) i) / (kB * (kB : ℝ)⁻¹)) 1
        * (deriv m 0 - (![1, 0] : Fin 2 → ℝ) i)
        * ((![-√2 + 1, 0] : Fin 2 → ℝ) i - (![-√2, 0] : Fin 2 → ℝ) i)) / (kB * (kB : ℝ)⁻¹) = 0 := by
    simp only [kB_inv, smearFns]
    simp [Fin.sum_univ_two, hz]
  have hF : dFdmu (smearFns .cold) (fun _ => ![-√2 + 1, 0]) (fun _ => ![-√2, 0] : Bands two)
      (fun _ => 1) 0 (kB : ℝ)⁻¹ 1 = coldDelta (-√2) 1 := by
    simp only [dFdmu, kB_inv, smearFns]
    simp [Fin.sum_univ_two]
  rw [hR] at heq
  simp only [codeGrad, hF, hdmu] at heq
  rw [hdmu] at hD
  simp only [gEta, if_true, kB_inv, if_neg (not_lt.2 hD), smearFns] at heq
  simp [Fin.sum_univ_two] at heq
  rw [← Complex.ofReal_add, ← Complex.ofReal_div, Complex.ofReal_re] at heq
  have hab : coldDelta (-√2) 1 + coldDelta 0 1 ≠ 0 := by linarith
  field_simp at heq
  nlinarith [mul_pos ha hb]

/-- **C15 fails for the Gaussian spline with occupancy 2**, the non-magnetic case: its entropy
ignores the occupancy. Two bands suffice. -/
theorem C15_not_gaussian_spline : ∃ (T mu : ℝ) (w : Fin 1 → ℝ) (e h f d : Bands two)
    (hij : (k : Fin 1) → Matrix (Fin (two k)) (Fin (two k)) ℂ) (E : Bands two → ℝ) (m : ℝ → ℝ),
    0 < T ∧ (∀ k i, hij k i i = ((w k * h k i : ℝ) : ℂ)) ∧
    (∀ k i, (mu - e k i) / (kB * T) ∈ inside .gaussianSpline) ∧
    1 / 10 ^ 12 ≤ |dmuDeta (smearFns .gaussianSpline) e w mu T 2| ∧
    OrbitalEnergies w h E (occs .gaussianSpline T 2 e mu) ∧
    FixedCharge .gaussianSpline T 2 w e d mu m ∧
    ¬ HasDerivAt (fun s => freeEnergy .gaussianSpline T 2 w E (e + s • d) (m s))
      (∑ k, ∑ i, (codeGrad .gaussianSpline T 2 w e h f hij mu k i).re * d k i) 0 := by
  have h0 := gsDelta_pos 0 (by simp)
  have h1 := gsDelta_pos (-1) (by norm_num)
  have hh : (1 : ℝ) / 2 ≤ gsDelta 0 1 := by
    have : (1 : ℝ) ≤ √2 := by rw [le_sqrt' (by norm_num)]; norm_num
    rw [gsDelta, if_neg (by norm_num), if_pos le_rfl]
    simp only [mul_zero, exp_zero, sub_zero, one_mul, mul_one]
    linarith
  set e : Bands two := fun _ => ![0, 1] with he
  set d : Bands two := fun _ => ![1, 0] with hd
  have hin : ∀ (k : Fin 1) (i : Fin (two k)),
      ((0 : ℝ) - e k i) / (kB * (kB : ℝ)⁻¹) ∈ inside .gaussianSpline := by
    intro k i
    rw [kB_inv]
    fin_cases i
    · show ((0 : ℝ) - 0) / 1 ∈ Set.Ioo (-7 : ℝ) 7
      constructor <;> norm_num
    · show ((0 : ℝ) - 1) / 1 ∈ Set.Ioo (-7 : ℝ) 7
      constructor <;> norm_num
  have hsum : deltaSum .gaussianSpline (kB : ℝ)⁻¹ 2 (fun _ => 1) e 0
      = 2 * gsDelta 0 1 + 2 * gsDelta (-1) 1 := by
    simp only [deltaSum, kB_inv, smearFns, gsDelta_scale _ 2]
    simp [he, Fin.sum_univ_two]
  have hdmu := dmuDeta_eq .gaussianSpline (by simp) (kB : ℝ)⁻¹ 2 (fun _ => 1) e 0
  rw [hsum] at hdmu
  have hD : 1 / 10 ^ 12 ≤ |dmuDeta (smearFns .gaussianSpline) e (fun _ => 1) 0 (kB : ℝ)⁻¹ 2| := by
    rw [hdmu, abs_of_pos (by linarith)]
    exact le_trans (by norm_num) (show (1 : ℝ) / 2 ≤ _ by linarith)
  have hTpos : 0 < (kB : ℝ)⁻¹ := inv_pos.2 kB_pos
  obtain ⟨m, hm⟩ := exists_fixedCharge .gaussianSpline (kB : ℝ)⁻¹ 2 hTpos (fun _ => 1) e d 0 hin
    (by rw [hsum]; linarith)
  refine ⟨(kB : ℝ)⁻¹, 0, fun _ => 1, e, e, fun _ _ => 0, d,
    fun _ => Matrix.of fun i _ => (![(0 : ℂ), 1] : Fin 2 → ℂ) i, _, m,
    hTpos, ?_, hin, hD, orbitalEnergies_band _ _ _, hm, ?_⟩
  · intro k i; fin_cases i <;> simp [he]
  intro hcode
  have hm0 := hm.start
  have htrue := hasDerivAt_freeEnergy .gaussianSpline (kB : ℝ)⁻¹ 2 hTpos (fun _ => 1) e d e
    hm.smooth.hasDerivAt (by rw [hm0]; exact hin) _ (orbitalEnergies_band _ _ _)
    (fun k i => -((m 0 - e k i) / (kB * (kB : ℝ)⁻¹)) * gsDelta ((m 0 - e k i) / (kB * (kB : ℝ)⁻¹)) 1)
    (fun k i => C10_entropy_derivative_partial .gaussianSpline 1 _
      (by rw [hm0]; exact inside_insideDelta _ (hin k i)) (fun _ => rfl))
  have heq := hcode.unique htrue
  have hc := charge_deriv .gaussianSpline (kB : ℝ)⁻¹ 2 hTpos (fun _ => 1) e d
    hm.smooth.hasDerivAt hm hin
  have hF : dFdmu (smearFns .gaussianSpline) e e (fun _ => 1) 0 (kB : ℝ)⁻¹ 2 = 0 := by
    simp [dFdmu]
  rw [hdmu] at hD
  simp only [codeGrad, hF, hdmu] at heq
  simp only [gEta, if_true, kB_inv, if_neg (not_lt.2 hD), smearFns, hm0,
    gsDelta_scale _ 2] at heq
  simp only [smearFns, kB_inv, gsDelta_scale _ 2] at hc
  simp [Fin.sum_univ_two, he, hd] at heq hc
  have hz : gsDelta (-1) 1 * deriv m 0 = 0 := by linarith
  have hm' : deriv m 0 = 0 := (mul_eq_zero.1 hz).resolve_left h1.ne'
  rw [hm'] at hc
  linarith

end Nlcg
