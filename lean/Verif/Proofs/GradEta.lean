import Verif.Spec.FreeEnergy
import Verif.Props.Smearing
import Mathlib.Analysis.Calculus.ImplicitFunction.ProdDomain
import Mathlib.Analysis.Calculus.MeanValue
import Mathlib.Analysis.Calculus.Deriv.Pi

/-!
# Derivative of the free energy at a fixed number of electrons
-/

namespace Nlcg
open Real Spec Filter Topology

theorem entropyTerm_ofFn (t : SmearType) (T mo mu : ℝ) {N : ℕ} {n : Fin N → ℕ} (w : Fin N → ℝ)
    (e : Bands n) : entropyTerm t T mo mu (List.ofFn fun k => (w k, List.ofFn (e k)))
      = -(kB * T) * ∑ k, w k * ∑ i, (smearFns t).entropy ((mu - e k i) / (kB * T)) mo := by
  simp only [entropyTerm, smearingEntropy, sumFunc_real, List.map_ofFn, List.sum_ofFn]
  simp only [Function.comp_def, List.map_ofFn, List.sum_ofFn]
  ring

/-- all deltas except that of cold smearing are even -/
theorem delta_even (t : SmearType) (ht : t ≠ .cold) (x mo : ℝ) :
    (smearFns t).delta (-x) mo = (smearFns t).delta x mo := by
  cases t with
  | cold => exact absurd rfl ht
  | gauss => show gaussDelta (-x) mo = gaussDelta x mo; simp [gaussDelta]
  | methfesselPaxton => show mpDelta (-x) mo = mpDelta x mo; simp [mpDelta]
  | fermiDirac =>
    show fdDelta (-x) mo = fdDelta x mo
    simp only [fdDelta, abs_neg, neg_neg]
    have : exp (x / 2) + exp (-x / 2) = exp (-x / 2) + exp (x / 2) := add_comm _ _
    rw [this]
  | gaussianSpline =>
    show gsDelta (-x) mo = gsDelta x mo
    rcases lt_trichotomy x 0 with h | h | h
    · simp only [gsDelta, abs_neg, neg_neg]
      rw [if_neg (show ¬ -x ≤ 0 by linarith), if_pos h.le]
      have : x * (√2 + -x) = (√2 - x) * x := by ring
      rw [this]; ring_nf
    · subst h; simp
    · simp only [gsDelta, abs_neg]
      rw [if_pos (show -x ≤ 0 by linarith), if_neg (not_le.2 h)]
      have : (√2 - -x) * -x = -x * (√2 + x) := by ring
      rw [this]; ring_nf

theorem delta_flip (t : SmearType) (ht : t ≠ .cold) (a b c mo : ℝ) :
    (smearFns t).delta ((a - b) / c) mo = (smearFns t).delta ((b - a) / c) mo := by
  rw [← delta_even t ht]; congr 1; ring

theorem isOpen_inside (t : SmearType) : IsOpen (inside t) := by
  cases t <;> first | exact isOpen_Ioo | exact isOpen_univ

theorem inside_insideDelta (t : SmearType) {x : ℝ} (h : x ∈ inside t) : x ∈ insideDelta t := by
  cases t with
  | cold => exact ⟨h.1, h.2.trans (by norm_num)⟩
  | _ => exact h

theorem continuousAt_delta (t : SmearType) (mo x : ℝ) (h : x ∈ inside t) :
    ContinuousAt (fun y => (smearFns t).delta y mo) x := by
  cases t with
  | methfesselPaxton => exact (hasDerivAt_mpDelta x mo).continuousAt
  | gaussianSpline =>
    refine (hasDerivAt_gsDeltaMid x mo).continuousAt.congr ?_
    filter_upwards [Ioo_mem_nhds h.1 h.2] with y hy
    exact (if_neg (not_lt.2 (abs_lt.2 hy).le)).symm
  | fermiDirac => exact (C09_dxdelta_is_derivative_partial .fermiDirac mo x h (by simp)
      (by simp)).continuousAt
  | gauss => exact (C09_dxdelta_is_derivative_partial .gauss mo x h (by simp)
      (by simp)).continuousAt
  | cold => exact (C09_dxdelta_is_derivative_partial .cold mo x (inside_insideDelta .cold h)
      (by simp) (by simp)).continuousAt

theorem hasStrictDerivAt_fn (t : SmearType) (mo x : ℝ) (h : x ∈ inside t) :
    HasStrictDerivAt (fun y => (smearFns t).fn y mo) ((smearFns t).delta x mo) x :=
  hasStrictDerivAt_of_hasDerivAt_of_continuousAt (f' := fun y => (smearFns t).delta y mo)
    (by filter_upwards [(isOpen_inside t).mem_nhds h] with y hy using
      C08_delta_is_derivative t mo y hy) (continuousAt_delta t mo x h)

section
variable {N : ℕ} {n : Fin N → ℕ}

/-- true sum of deltas -/
noncomputable def deltaSum (t : SmearType) (T mo : ℝ) (w : Fin N → ℝ) (e : Bands n) (mu : ℝ) : ℝ :=
  ∑ k, w k * ∑ i, (smearFns t).delta ((mu - e k i) / (kB * T)) mo

theorem dmuDeta_eq (t : SmearType) (ht : t ≠ .cold) (T mo : ℝ) (w : Fin N → ℝ) (e : Bands n)
    (mu : ℝ) : dmuDeta (smearFns t) e w mu T mo = deltaSum t T mo w e mu := by
  simp only [dmuDeta, deltaSum, delta_flip t ht _ mu, Finset.mul_sum]
  exact Finset.sum_congr rfl fun k _ => Finset.sum_congr rfl fun i _ => mul_comm _ _

/-- The argument of the smearing along a path. -/
theorem hasDerivAt_arg {m : ℝ → ℝ} {m' : ℝ} (hm : HasDerivAt m m' 0) (a b c : ℝ) :
    HasDerivAt (fun s => (m s - (a + s * b)) / c) ((m' - b) / c) 0 := by
  have h := (hm.sub (((hasDerivAt_id (0 : ℝ)).mul_const b).const_add a)).div_const c
  refine hd_to h (fun _ => rfl) ?_
  rw [one_mul]

/-- occupations along a path of pseudo-energies and chemical potential -/
theorem hasDerivAt_occs (t : SmearType) (T mo : ℝ) (e d : Bands n) {m : ℝ → ℝ} {m' : ℝ}
    (hm : HasDerivAt m m' 0) (hin : ∀ k i, (m 0 - e k i) / (kB * T) ∈ inside t) (k i) :
    HasDerivAt (fun s => occs t T mo (e + s • d) (m s) k i)
      ((smearFns t).delta ((m 0 - e k i) / (kB * T)) mo * ((m' - d k i) / (kB * T))) 0 := by
  have h1 := hasDerivAt_arg hm (e k i) (d k i) (kB * T)
  have h2 := C08_delta_is_derivative t mo _ (hin k i)
  have h3 : HasDerivAt (fun y => (smearFns t).fn y mo)
      ((smearFns t).delta ((m 0 - e k i) / (kB * T)) mo)
      ((fun s => (m s - (e k i + s * d k i)) / (kB * T)) 0) := by
    simpa using h2
  exact h3.comp 0 h1

/-- Derivative of the free energy along any path. `s k i` is the derivative of the entropy of band
`(k, i)`. -/
theorem hasDerivAt_freeEnergy (t : SmearType) (T mo : ℝ) (hT : 0 < T) (w : Fin N → ℝ)
    (e d h : Bands n) {m : ℝ → ℝ} {m' : ℝ} (hm : HasDerivAt m m' 0)
    (hin : ∀ k i, (m 0 - e k i) / (kB * T) ∈ inside t) (E : Bands n → ℝ)
    (hE : OrbitalEnergies w h E (occs t T mo e (m 0))) (s : Bands n)
    (hs : ∀ k i, HasDerivAt (fun y => (smearFns t).entropy y mo) (s k i)
      ((m 0 - e k i) / (kB * T))) :
    HasDerivAt (fun r => freeEnergy t T mo w E (e + r • d) (m r))
      (∑ k, w k * ∑ i, (h k i * ((smearFns t).delta ((m 0 - e k i) / (kB * T)) mo
          * ((m' - d k i) / (kB * T))) - s k i * (m' - d k i))) 0 := by
  have hkT : (kB : ℝ) * T ≠ 0 := (mul_pos kB_pos hT).ne'
  obtain ⟨L, hL, hLdf⟩ := hE
  have hocc : HasDerivAt (fun r => occs t T mo (e + r • d) (m r)) (fun k i =>
      (smearFns t).delta ((m 0 - e k i) / (kB * T)) mo * ((m' - d k i) / (kB * T))) 0 :=
    hasDerivAt_pi.2 fun k => hasDerivAt_pi.2 fun i => hasDerivAt_occs t T mo e d hm hin k i
  have h0 : occs t T mo e (m 0) = (fun r => occs t T mo (e + r • d) (m r)) 0 := by simp
  rw [h0] at hL
  have hA := hL.comp_hasDerivAt (0 : ℝ) hocc
  have hB : HasDerivAt (fun r => -(kB * T : ℝ) * ∑ k, w k * ∑ i,
      (smearFns t).entropy ((m r - (e + r • d) k i) / (kB * T)) mo)
      (-(kB * T : ℝ) * ∑ k, w k * ∑ i, s k i * ((m' - d k i) / (kB * T))) 0 := by
    refine HasDerivAt.const_mul _ (HasDerivAt.fun_sum fun k _ => HasDerivAt.const_mul _
      (HasDerivAt.fun_sum fun i _ => ?_))
    have h1 := hasDerivAt_arg hm (e k i) (d k i) (kB * T)
    have h3 : HasDerivAt (fun y => (smearFns t).entropy y mo) (s k i)
        ((fun s => (m s - (e k i + s * d k i)) / (kB * T)) 0) := by
      simpa using hs k i
    exact h3.comp 0 h1
  have hAB := hA.add hB
  refine hd_to hAB (fun r => ?_) ?_
  · simp only [freeEnergy, entropyTerm_ofFn, Pi.add_apply, Function.comp]
  · rw [hLdf, Finset.mul_sum, ← Finset.sum_add_distrib]
    refine Finset.sum_congr rfl fun k _ => ?_
    rw [mul_left_comm, ← mul_add, Finset.mul_sum (a := -(kB * T : ℝ)), ← Finset.sum_add_distrib]
    congr 1
    refine Finset.sum_congr rfl fun i _ => ?_
    have : -(kB * T : ℝ) * (s k i * ((m' - d k i) / (kB * T))) = -(s k i * (m' - d k i)) := by
      rw [mul_div_assoc', mul_div_assoc', neg_mul, neg_div, mul_div_cancel_left₀ _ hkT]
    rw [this, sub_eq_add_neg]

/-- charge conservation along a path -/
theorem charge_deriv (t : SmearType) (T mo : ℝ) (hT : 0 < T) (w : Fin N → ℝ) (e d : Bands n)
    {mu m' : ℝ} {m : ℝ → ℝ} (hm : HasDerivAt m m' 0) (hf : FixedCharge t T mo w e d mu m)
    (hin : ∀ k i, (mu - e k i) / (kB * T) ∈ inside t) :
    ∑ k, w k * ∑ i, (smearFns t).delta ((mu - e k i) / (kB * T)) mo * (m' - d k i) = 0 := by
  have hkT : (kB : ℝ) * T ≠ 0 := (mul_pos kB_pos hT).ne'
  obtain ⟨h0, -, hc⟩ := hf
  subst h0
  have h1 : HasDerivAt (fun r => charge t T mo w (e + r • d) (m r))
      (∑ k, w k * ∑ i, (smearFns t).delta ((m 0 - e k i) / (kB * T)) mo
        * ((m' - d k i) / (kB * T))) 0 :=
    HasDerivAt.fun_sum fun k _ => HasDerivAt.const_mul _
      (HasDerivAt.fun_sum fun i _ => hasDerivAt_occs t T mo e d hm hin k i)
  have h2 : HasDerivAt (fun r => charge t T mo w (e + r • d) (m r)) 0 0 :=
    (hasDerivAt_const (0 : ℝ) (charge t T mo w e (m 0))).congr_of_eventuallyEq hc
  have h3 := h1.unique h2
  simp only [← mul_div_assoc, ← Finset.sum_div] at h3
  exact (div_eq_zero_iff.1 h3).resolve_right hkT

/-- A charge-conserving chemical potential exists: implicit function theorem. -/
theorem exists_fixedCharge (t : SmearType) (T mo : ℝ) (hT : 0 < T) (w : Fin N → ℝ)
    (e d : Bands n) (mu : ℝ) (hin : ∀ k i, (mu - e k i) / (kB * T) ∈ inside t)
    (hD : deltaSum t T mo w e mu ≠ 0) : ∃ m, FixedCharge t T mo w e d mu m := by
  have hkT : (kB : ℝ) * T ≠ 0 := (mul_pos kB_pos hT).ne'
  set f : ℝ × ℝ → ℝ := fun p => charge t T mo w (e + p.1 • d) p.2 with hf
  have harg : ∀ k i, HasStrictFDerivAt (fun p : ℝ × ℝ => (p.2 - (e k i + p.1 * d k i)) / (kB * T))
      ((kB * T : ℝ)⁻¹ • (ContinuousLinearMap.snd ℝ ℝ ℝ - (d k i) • ContinuousLinearMap.fst ℝ ℝ ℝ))
      ((0 : ℝ), mu) := by
    intro k i
    have h1 := (((ContinuousLinearMap.snd ℝ ℝ ℝ).hasStrictFDerivAt (x := ((0 : ℝ), mu))).fun_sub
      ((((ContinuousLinearMap.fst ℝ ℝ ℝ).hasStrictFDerivAt (x := ((0 : ℝ), mu))).fun_const_smul
        (d k i)).const_add (e k i))).fun_const_smul (kB * T : ℝ)⁻¹
    refine h1.congr_of_eventuallyEq (Eventually.of_forall fun p => ?_)
    simp only [smul_eq_mul, ContinuousLinearMap.coe_snd', ContinuousLinearMap.coe_fst']
    ring
  have hband : ∀ k i, HasStrictFDerivAt (fun p : ℝ × ℝ => occs t T mo (e + p.1 • d) p.2 k i)
      ((smearFns t).delta ((mu - e k i) / (kB * T)) mo • ((kB * T : ℝ)⁻¹ •
        (ContinuousLinearMap.snd ℝ ℝ ℝ - (d k i) • ContinuousLinearMap.fst ℝ ℝ ℝ)))
      ((0 : ℝ), mu) := by
    intro k i
    have h2 := hasStrictDerivAt_fn t mo _ (hin k i)
    exact h2.comp_hasStrictFDerivAt_of_eq _ (harg k i) (by simp)
  have hfd : HasStrictFDerivAt f (∑ k, w k • ∑ i, ((smearFns t).delta ((mu - e k i) / (kB * T)) mo •
      ((kB * T : ℝ)⁻¹ • (ContinuousLinearMap.snd ℝ ℝ ℝ
        - (d k i) • ContinuousLinearMap.fst ℝ ℝ ℝ)))) ((0 : ℝ), mu) :=
    HasStrictFDerivAt.fun_sum fun k _ => HasStrictFDerivAt.const_mul
      (HasStrictFDerivAt.fun_sum fun i _ => hband k i) _
  have hc : deltaSum t T mo w e mu / (kB * T) ≠ 0 := div_ne_zero hD hkT
  set D := ∑ k, w k • ∑ i, ((smearFns t).delta ((mu - e k i) / (kB * T)) mo •
      ((kB * T : ℝ)⁻¹ • (ContinuousLinearMap.snd ℝ ℝ ℝ
        - (d k i) • ContinuousLinearMap.fst ℝ ℝ ℝ))) with hDdef
  have hinr : ∀ y, (D ∘L .inr ℝ ℝ ℝ) y = deltaSum t T mo w e mu / (kB * T) * y := by
    intro y
    simp only [hDdef, ContinuousLinearMap.comp_apply, sum_apply,
      smul_apply, sub_apply,
      ContinuousLinearMap.inr_apply, ContinuousLinearMap.coe_snd', ContinuousLinearMap.coe_fst',
      smul_eq_mul, mul_zero, sub_zero, deltaSum, Finset.sum_div, Finset.sum_mul, Finset.mul_sum]
    refine Finset.sum_congr rfl fun k _ => Finset.sum_congr rfl fun i _ => ?_
    field_simp
  have hinv : (D ∘L .inr ℝ ℝ ℝ).IsInvertible := by
    refine ContinuousLinearMap.IsInvertible.of_inverse
      (g := (deltaSum t T mo w e mu / (kB * T))⁻¹ • ContinuousLinearMap.id ℝ ℝ) ?_ ?_
    · ext; simp only [ContinuousLinearMap.comp_apply, smul_apply,
        ContinuousLinearMap.id_apply, smul_eq_mul, mul_one]
      have := hinr ((deltaSum t T mo w e mu / (kB * T))⁻¹)
      rw [ContinuousLinearMap.comp_apply] at this
      rw [this, mul_inv_cancel₀ hc]
    · ext
      have := hinr 1
      rw [ContinuousLinearMap.comp_apply] at this
      simp only [ContinuousLinearMap.comp_apply, smul_apply,
        ContinuousLinearMap.id_apply, smul_eq_mul]
      rw [this, mul_one, inv_mul_cancel₀ hc]
  refine ⟨hfd.implicitFunctionOfProdDomain hinv, ?_, ?_, ?_⟩
  · exact (hfd.eventually_apply_eq_iff_implicitFunctionOfProdDomain hinv).self_of_nhds.mp rfl
  · exact (hfd.hasStrictFDerivAt_implicitFunctionOfProdDomain hinv).hasFDerivAt.differentiableAt
  · have := hfd.eventually_apply_implicitFunctionOfProdDomain hinv
    filter_upwards [this] with s hs
    have h0 : f (0, mu) = charge t T mo w e mu := by simp [hf]
    rw [h0] at hs
    exact hs

/-- The derivative of the free energy at fixed charge, before the chemical potential is
eliminated. -/
theorem hasDerivAt_freeEnergy_fixed (t : SmearType) (T mo : ℝ)
    (hgs : t = .gaussianSpline → mo = 1) (hT : 0 < T) (w : Fin N → ℝ) (e d h : Bands n) (mu : ℝ) {m : ℝ → ℝ} {m' : ℝ}
    (hm : HasDerivAt m m' 0) (hf : FixedCharge t T mo w e d mu m)
    (hin : ∀ k i, (mu - e k i) / (kB * T) ∈ inside t) (E : Bands n → ℝ)
    (hE : OrbitalEnergies w h E (occs t T mo e mu)) :
    HasDerivAt (fun r => freeEnergy t T mo w E (e + r • d) (m r))
      ((∑ k, w k * ∑ i, (smearFns t).delta ((mu - e k i) / (kB * T)) mo
          * (m' - d k i) * (h k i - e k i)) / (kB * T)) 0 := by
  have hkT : (kB : ℝ) * T ≠ 0 := (mul_pos kB_pos hT).ne'
  have hc := charge_deriv t T mo hT w e d hm hf hin
  obtain ⟨h0, -, -⟩ := hf
  subst h0
  have h1 := hasDerivAt_freeEnergy t T mo hT w e d h hm hin E hE
    (fun k i => -((m 0 - e k i) / (kB * T)) * (smearFns t).delta ((m 0 - e k i) / (kB * T)) mo)
    (fun k i => C10_entropy_derivative_partial t mo _ (inside_insideDelta t (hin k i)) hgs)
  refine hd_to h1 (fun _ => rfl) ?_
  have hz : ∑ k, w k * ∑ i, (smearFns t).delta ((m 0 - e k i) / (kB * T)) mo * (m' - d k i)
      * m 0 = 0 := by
    simp only [← Finset.sum_mul, ← mul_assoc]
    rw [hc, zero_mul]
  rw [div_eq_iff hkT]
  refine (add_zero _).symm.trans ((congrArg (_ + ·) hz.symm).trans ?_)
  rw [← Finset.sum_add_distrib, Finset.sum_mul]
  refine Finset.sum_congr rfl fun k _ => ?_
  rw [← mul_add, ← Finset.sum_add_distrib, mul_assoc, Finset.sum_mul]
  congr 1
  refine Finset.sum_congr rfl fun i _ => ?_
  generalize (smearFns t).delta ((m 0 - e k i) / (kB * T)) mo = δ
  generalize (kB : ℝ) * T = c at hkT ⊢
  field_simp
  ring

theorem delta_nonneg (t : SmearType) (ht : Monotonic t) (x mo : ℝ) (h : 0 ≤ mo) :
    0 ≤ (smearFns t).delta x mo := by
  cases t with
  | methfesselPaxton => exact ht.elim
  | cold => exact ht.elim
  | gauss => show 0 ≤ gaussDelta x mo; rw [gaussDelta]; positivity
  | fermiDirac =>
    show 0 ≤ fdDelta x mo
    rw [fdDelta]; split_ifs
    · exact le_rfl
    · positivity
  | gaussianSpline =>
    show 0 ≤ gsDelta x mo
    rw [gsDelta_scale]
    refine mul_nonneg h ?_
    by_cases hx : |x| ≤ 7
    · exact (gsDelta_pos x hx).le
    · rw [gsDelta, if_pos (not_le.1 hx)]

/-- diagonal entry of the gradient the code computes -/
theorem gEta_diag (t : SmearType) (ht : t ≠ .cold) (T : ℝ) {b : ℕ}
    (hij : Matrix (Fin b) (Fin b) ℂ) (mu wk : ℝ) (ek fn hk : Fin b → ℝ) (dmu dF mo : ℝ)
    (i : Fin b) (hd : hij i i = ((wk * hk i : ℝ) : ℂ)) :
    gEta (smearFns t) T hij mu wk ek fn dmu dF mo i i
      = ((-1 / (kB * T) * (wk * (hk i - ek i)) * (smearFns t).delta ((mu - ek i) / (kB * T)) mo
          + (if |dmu| < 1 / 10 ^ 12 then 0 else
            wk * (smearFns t).delta ((mu - ek i) / (kB * T)) mo / dmu * (dF / (kB * T))) : ℝ) : ℂ) := by
  simp only [gEta, if_true, hd, delta_flip t ht (ek i) mu]
  split_ifs <;> push_cast <;> ring

theorem dFdmu_eq (t : SmearType) (ht : t ≠ .cold) (T mo : ℝ) (w : Fin N → ℝ) (h e : Bands n)
    (mu : ℝ) : dFdmu (smearFns t) h e w mu T mo
      = ∑ k, w k * ∑ i, (smearFns t).delta ((mu - e k i) / (kB * T)) mo * (h k i - e k i) := by
  simp only [dFdmu, delta_flip t ht _ mu]
  refine Finset.sum_congr rfl fun k _ => ?_
  rw [mul_comm]; congr 1
  exact Finset.sum_congr rfl fun i _ => mul_comm _ _

/-- The band energy is an energy functional with the given orbital energies. -/
theorem orbitalEnergies_band (w : Fin N → ℝ) (h f : Bands n) :
    OrbitalEnergies w h (fun f => ∑ k, w k * ∑ i, h k i * f k i) f := by
  let L : Bands n →ₗ[ℝ] ℝ :=
    { toFun := fun f => ∑ k, w k * ∑ i, h k i * f k i
      map_add' := fun a b => by
        simp only [Pi.add_apply, mul_add, Finset.sum_add_distrib]
      map_smul' := fun c a => by
        simp only [Pi.smul_apply, smul_eq_mul, RingHom.id_apply, Finset.mul_sum]
        exact Finset.sum_congr rfl fun k _ => Finset.sum_congr rfl fun i _ => by ring }
  exact ⟨L.toContinuousLinearMap, L.toContinuousLinearMap.hasFDerivAt, fun _ => rfl⟩

/-- one k-point with two bands -/
abbrev two : Fin 1 → ℕ := fun _ => 2

theorem kB_inv : (kB : ℝ) * (kB : ℝ)⁻¹ = 1 := mul_inv_cancel₀ kB_pos.ne'

theorem gaussDelta_zero : (1 : ℝ) / 2 ≤ gaussDelta 0 1 := by
  have h4 : √π ≤ 2 := by
    rw [sqrt_le_left (by norm_num)]; norm_num; exact pi_le_four
  rw [gaussDelta, one_mul, neg_zero, zero_mul, exp_zero]
  exact one_div_le_one_div_of_le sqrtpi_pos h4

end
end Nlcg
