import Verif.Proofs.SlopeMu
import Verif.Props.Geodesic

/-!
# C70: the slope is the derivative of the free energy along the search path

`K` k-points (of all ranks), `ks k` input of the direction code, `H k` Hamiltonian. A trial step of
length `s` along the direction `z` moves k-point `k` to `o s k` (orbitals, pseudo-energies,
eigenvectors); the chemical potential becomes `m s`, such that the number of electrons is kept. The
energy `E` is a function of the density matrices whose derivative is given by `H`, see
`Spec.Hamiltonian`.
-/

namespace Nlcg
open Matrix Spec Filter Topology ComplexOrder

variable {K : ℕ} {n b : Fin K → ℕ}

/-- The contribution of pairs of bands closer than `1e-10`, which the code leaves out. -/
noncomputable def droppedSlope (p : DirParams) (ks : (k : Fin K) → KIn (n k) (b k)) (z : Dir n b) : ℝ :=
  ∑ k, ∑ i, ∑ j, if i = j then 0 else if |(ks k).e j - (ks k).e i| < 1 / 10 ^ 10 then
    -((ks k).wk / (kB * p.T)) * dslope (fun x => (smearFns p.t).fn x p.mo)
      ((p.mu - (ks k).e i) / (kB * p.T)) ((p.mu - (ks k).e j) / (kB * p.T))
      * (star (((ks k).Xᴴ * (ks k).hx) i j) * z.zeta k i j).re
  else 0

/-- Derivative along any tangent Hermitian direction: the slope plus what the code leaves out. -/
theorem C70_exact_derivative {la : Lapack} (hla : LapackOk la) (p : DirParams)
    (ks : (k : Fin K) → KIn (n k) (b k)) (H : (k : Fin K) → Mat (n k) (n k))
    (hk : ∀ k, Physical (ks k) (H k)) (hS : ∀ k, (ks k).S.IsHermitian) (hf : Occupied p ks)
    (hr : Regular p ks) (E : ((k : Fin K) → Mat (n k) (n k)) → ℝ)
    (hE : Hamiltonian (fun k => (ks k).wk) E (fun k => densityMat (ks k).X (ks k).f) H)
    (z : Dir n b) (ht : ∀ k, Tangent (ks k).S (ks k).X (z.zx k)) (hz : ∀ k, (z.zeta k).IsHermitian)
    (o : ℝ → (k : Fin K) → GeoOut (n k) (b k)) (ho : SearchPath la ks z o)
    (m : ℝ → ℝ) (hm : PathCharge p ks o m) :
    HasDerivAt (pathEnergy p ks E o m) (slopeAlong p ks z + droppedSlope p ks z) 0 := by
  have hkT : (kB : ℝ) * p.T ≠ 0 := (mul_pos kB_pos hr.temp).ne'
  have hmd := hm.smooth.hasDerivAt
  have hpath := ho.geo
  have h0 := hm.start
  have hfn : ∀ k i, HasDerivAt (fun y => (smearFns p.t).fn y p.mo)
      ((smearFns p.t).delta ((m 0 - (ks k).e i) / (kB * p.T)) p.mo)
      ((m 0 - (ks k).e i) / (kB * p.T)) := fun k i =>
    C08_delta_is_derivative p.t p.mo _ (by rw [h0]; exact hr.cutoff k i)
  -- charge
  have hc : ∑ k, (ks k).wk * ∑ i, (smearFns p.t).delta ((p.mu - (ks k).e i) / (kB * p.T)) p.mo
      * (deriv m 0 - (z.zeta k i i).re) = 0 := by
    have h1 : HasDerivAt (fun s => charge p.t p.T p.mo (fun k => (ks k).wk) (fun k => (o s k).ek) (m s))
        (∑ k, (ks k).wk * ∑ i, (smearFns p.t).delta ((m 0 - (ks k).e i) / (kB * p.T)) p.mo
          * ((deriv m 0 - (z.zeta k i i).re) / (kB * p.T))) 0 :=
      HasDerivAt.fun_sum fun k _ => HasDerivAt.const_mul _
        (bandSum_deriv hla (hz k) (hpath k) hmd (kB * p.T) (hfn k))
    have h2 := (hasDerivAt_const (0 : ℝ) (charge p.t p.T p.mo (fun k => (ks k).wk)
      (fun k => (ks k).e) p.mu)).congr_of_eventuallyEq hm.fixed
    have h3 := h1.unique h2
    simp only [← mul_div_assoc, ← Finset.sum_div, h0] at h3
    exact (div_eq_zero_iff.1 h3).resolve_right hkT
  -- energy
  have hD := fun k => density_MD hla (hS k) (hk k).ortho (ht k) (hz k) (hpath k) hmd (kB * p.T)
    fun i => (hfn k i).differentiableAt
  have hen := hE (fun s k => densityMat (o s k).X
      (occs p.t p.T p.mo (fun k => (o s k).ek) (m s) k)) _
    (funext fun k => by
      have := (hD k).2
      refine this.trans ?_
      congr 1
      exact funext fun i => by rw [hf k i, h0])
    (fun s k => densityMat_hermitian _ _) (fun k => (hD k).1)
  -- entropy
  have hent : HasDerivAt (fun s => -(kB * p.T : ℝ) * ∑ k, (ks k).wk * ∑ i,
      (smearFns p.t).entropy ((m s - (o s k).ek i) / (kB * p.T)) p.mo)
      (-(kB * p.T : ℝ) * ∑ k, (ks k).wk * ∑ i, -((m 0 - (ks k).e i) / (kB * p.T))
        * (smearFns p.t).delta ((m 0 - (ks k).e i) / (kB * p.T)) p.mo
        * ((deriv m 0 - (z.zeta k i i).re) / (kB * p.T))) 0 :=
    HasDerivAt.const_mul _ (HasDerivAt.fun_sum fun k _ => HasDerivAt.const_mul _
      (bandSum_deriv hla (hz k) (hpath k) hmd (kB * p.T) fun i =>
        C10_entropy_derivative_partial p.t p.mo _ (inside_insideDelta p.t
          (by rw [h0]; exact hr.cutoff k i)) hr.spline))
  refine hd_to (hen.add hent) (fun s => ?_) ?_
  · rw [pathEnergy, freeEnergyAt, entropyTerm_ofFn]; rfl
  · rw [h0]
    have hdd := diag_total (kB * p.T) p.mu (deriv m 0) hkT (fun k => (ks k).wk) (fun k => (ks k).e)
      (fun k => (ks k).hii) (fun k i => (z.zeta k i i).re)
      (fun k i => (smearFns p.t).delta ((p.mu - (ks k).e i) / (kB * p.T)) p.mo) hc
    have hb : ∀ k i, ((ks k).Xᴴ * (ks k).hx) i i = (((ks k).hii i : ℝ) : ℂ) := fun k i => by
      rw [(hk k).bands i, (hk k).hx]
    have hg := eta_diag_sum p.t hr.notCold p.T p.mo hr.temp (fun k => (ks k).wk) (fun k => (ks k).e)
      (fun k => (ks k).hii) (fun k => (ks k).f) (fun k i => (z.zeta k i i).re)
      (fun k => ((ks k).wk : ℂ) • ((ks k).Xᴴ * (ks k).hx))
      (fun k i => by rw [Matrix.smul_apply, hb, smul_eq_mul]; push_cast; ring) p.mu (deriv m 0) hr.dos hc
    rw [hg] at hdd
    have hterm : ∀ k, (ks k).wk * (H k * (z.zx k * rdiag (fun i => (smearFns p.t).fn ((p.mu - (ks k).e i)
          / (kB * p.T)) p.mo) * (ks k).Xᴴ
        + (ks k).X * ddMat (fun y => (smearFns p.t).fn y p.mo) (fun i => (p.mu - (ks k).e i) / (kB * p.T))
            ((((kB * p.T)⁻¹ : ℝ) : ℂ) • (((deriv m 0 : ℝ) : ℂ) • 1 - z.zeta k)) * (ks k).Xᴴ
        + (ks k).X * rdiag (fun i => (smearFns p.t).fn ((p.mu - (ks k).e i) / (kB * p.T)) p.mo)
          * (z.zx k)ᴴ)).trace.re
        = 2 * rdot (orbitalGradient ks k) (z.zx k)
          + ((ks k).wk * ∑ i, (ks k).hii i * ((smearFns p.t).delta ((p.mu - (ks k).e i) / (kB * p.T)) p.mo
              * ((deriv m 0 - (z.zeta k i i).re) / (kB * p.T)))
            + ∑ i, ∑ j, if i = j then 0 else
              ((star (etaGradient p ks k i j) * z.zeta k i j).re
                + if |(ks k).e j - (ks k).e i| < 1 / 10 ^ 10 then
                -((ks k).wk / (kB * p.T)) * dslope (fun x => (smearFns p.t).fn x p.mo)
                ((p.mu - (ks k).e i) / (kB * p.T)) ((p.mu - (ks k).e j) / (kB * p.T))
                * (star (((ks k).Xᴴ * (ks k).hx) i j) * z.zeta k i j).re else 0)) := by
      intro k
      rw [trace_split (hk k).herm, sum_diag_off, mul_add, mul_add, ← (hk k).hx]
      congr 1
      · rw [orbitalGradient, rdot_smul_left, show (fun i => (smearFns p.t).fn ((p.mu - (ks k).e i)
          / (kB * p.T)) p.mo) = (ks k).f from funext fun i => (hf k i).symm]
        ring
      · congr 1
        · congr 1
          exact Finset.sum_congr rfl fun i _ => pair_diag _ _ _ _ _ _ _ _ _ _ (hb k i)
            (by rw [← h0]; exact hfn k i)
        · rw [Finset.mul_sum]
          refine Finset.sum_congr rfl fun i _ => ?_
          rw [Finset.mul_sum]
          refine Finset.sum_congr rfl fun j _ => ?_
          split_ifs with hij hs
          · rw [mul_zero]
          · have := pair_off (smearFns p.t) p.T hr.temp p.mo p.mu (ks k).wk (deriv m 0)
              ((ks k).Xᴴ * (ks k).hx) (z.zeta k) (ks k).e (ks k).f
              (dmuDeta (smearFns p.t) (fun k => (ks k).e) (fun k => (ks k).wk) p.mu p.T p.mo)
              (dFdmu (smearFns p.t) (fun k => (ks k).hii) (fun k => (ks k).e) (fun k => (ks k).wk)
                p.mu p.T p.mo) (hf k) i j hij
            rw [if_pos hs] at this
            exact this
          · have := pair_off (smearFns p.t) p.T hr.temp p.mo p.mu (ks k).wk (deriv m 0)
              ((ks k).Xᴴ * (ks k).hx) (z.zeta k) (ks k).e (ks k).f
              (dmuDeta (smearFns p.t) (fun k => (ks k).e) (fun k => (ks k).wk) p.mu p.T p.mo)
              (dFdmu (smearFns p.t) (fun k => (ks k).hii) (fun k => (ks k).e) (fun k => (ks k).wk)
                p.mu p.T p.mo) (hf k) i j hij
            rw [if_neg hs] at this
            exact this
    rw [Finset.sum_congr rfl fun k _ => hterm k, Finset.sum_add_distrib, Finset.sum_add_distrib, add_assoc,
      add_right_comm _ (∑ k, ∑ i, ∑ j, _) _, hdd]
    have heta : ∀ k, rdot (etaGradient p ks k) (z.zeta k)
        = ∑ i, (etaGradient p ks k i i).re * (z.zeta k i i).re
          + ∑ i, ∑ j, if i = j then 0 else (star (etaGradient p ks k i j) * z.zeta k i j).re := by
      intro k
      rw [rdot_sum, Finset.sum_comm, sum_diag_off]
      congr 1
      refine Finset.sum_congr rfl fun i _ => ?_
      have : etaGradient p ks k i i = (((etaGradient p ks k i i).re : ℝ) : ℂ) := by
        rw [etaGradient, gEta_diag p.t hr.notCold p.T _ p.mu (ks k).wk (ks k).e (ks k).f (ks k).hii _ _ p.mo i
          (by rw [Matrix.smul_apply, hb, smul_eq_mul]; push_cast; ring), Complex.ofReal_re]
      conv_lhs => rw [this]
      rw [show star ((((etaGradient p ks k i i).re : ℝ)) : ℂ) = (((etaGradient p ks k i i).re : ℝ) : ℂ)
        from Complex.conj_ofReal _, Complex.re_ofReal_mul]
    rw [slopeAlong, droppedSlope, Finset.sum_add_distrib, add_assoc]
    congr 1
    rw [Finset.sum_congr rfl fun k _ => heta k, Finset.sum_add_distrib, add_assoc]
    congr 1
    rw [← Finset.sum_add_distrib]
    refine Finset.sum_congr rfl fun k _ => ?_
    rw [← Finset.sum_add_distrib]
    refine Finset.sum_congr rfl fun i _ => ?_
    rw [← Finset.sum_add_distrib]
    refine Finset.sum_congr rfl fun j _ => ?_
    split_ifs <;> simp only [add_zero]

/-- bands are further apart than `1e-10` -/
def Gapped (ks : (k : Fin K) → KIn (n k) (b k)) : Prop :=
  ∀ k i j, i ≠ j → 1 / 10 ^ 10 ≤ |(ks k).e j - (ks k).e i|

theorem droppedSlope_gapped (p : DirParams) (ks : (k : Fin K) → KIn (n k) (b k)) (z : Dir n b)
    (hg : Gapped ks) : droppedSlope p ks z = 0 := by
  refine Finset.sum_eq_zero fun k _ => Finset.sum_eq_zero fun i _ => Finset.sum_eq_zero fun j _ => ?_
  split_ifs with h1 h2
  · rfl
  · exact absurd h2 (not_lt.2 (hg k i j h1))
  · rfl

theorem dslope_nonneg {f : ℝ → ℝ} (hf : Monotone f) {d x : ℝ} (hd : HasDerivAt f d x) (h0 : 0 ≤ d) (y : ℝ) :
    0 ≤ dslope f x y := by
  rcases eq_or_ne y x with h | h
  · rw [h, dslope_same, hd.deriv]; exact h0
  · rw [dslope_of_ne _ h, slope_def_field]
    rcases lt_or_gt_of_ne h with h | h
    · exact div_nonneg_of_nonpos (by linarith [hf h.le]) (by linarith)
    · exact div_nonneg (by linarith [hf h.le]) (by linarith)

theorem droppedSlope_restarted (la : Lapack) (p : DirParams) (ks : (k : Fin K) → KIn (n k) (b k))
    (hr : Regular p ks) (htm : Monotonic p.t) (hmo : 0 ≤ p.mo) (hkappa : 0 ≤ p.kappa)
    (hw : ∀ k, 0 < (ks k).wk) : droppedSlope p ks (restarted la p ks).2 ≤ 0 := by
  have hkT := mul_pos kB_pos hr.temp
  refine Finset.sum_nonpos fun k _ => Finset.sum_nonpos fun i _ => Finset.sum_nonpos fun j _ => ?_
  split_ifs with h1 h2
  · exact le_rfl
  · have hz : (restarted la p ks).2.zeta k i j
        = ((p.kappa : ℝ) : ℂ) * ((ks k).Xᴴ * (ks k).hx) i j := by
      show deltaEta p.kappa (innerM (ks k).X (ks k).hx ((ks k).wk : ℂ)) (ks k).e (ks k).wk i j = _
      have hwk : ((ks k).wk : ℂ) ≠ 0 := by exact_mod_cast (hw k).ne'
      rw [deltaEta, if_neg h1, innerM, Matrix.smul_apply, smul_eq_mul]
      push_cast
      field_simp
    rw [hz, mul_left_comm, Complex.re_ofReal_mul, Complex.star_def, ← Complex.normSq_eq_conj_mul_self,
      Complex.ofReal_re]
    have h3 := dslope_nonneg (smear_mono p.t htm hmo)
      (C08_delta_is_derivative p.t p.mo _ (hr.cutoff k i)) (delta_nonneg p.t htm _ _ hmo)
      ((p.mu - (ks k).e j) / (kB * p.T))
    have h4 := div_pos (hw k) hkT
    have h5 := Complex.normSq_nonneg (((ks k).Xᴴ * (ks k).hx) i j)
    have h6 := mul_nonneg (mul_nonneg h4.le h3) (mul_nonneg hkappa h5)
    linarith
  · exact le_rfl

/-- **C70.** The slope handed to the line search after a restart is the derivative of the free energy
along the path that the trial steps follow. Missing: bands closer than `1e-10`
(`C70_not_degenerate`), and what `C15` excludes. -/
theorem C70_restarted_slope_partial {la : Lapack} (hla : LapackOk la) (p : DirParams)
    (ks : (k : Fin K) → KIn (n k) (b k)) (H : (k : Fin K) → Mat (n k) (n k))
    (hk : ∀ k, Physical (ks k) (H k)) (hS : ∀ k, (ks k).S.IsHermitian) (hf : Occupied p ks)
    (hr : Regular p ks) (hg : Gapped ks) (E : ((k : Fin K) → Mat (n k) (n k)) → ℝ)
    (hE : Hamiltonian (fun k => (ks k).wk) E (fun k => densityMat (ks k).X (ks k).f) H)
    (o : ℝ → (k : Fin K) → GeoOut (n k) (b k)) (ho : SearchPath la ks (restarted la p ks).2 o)
    (m : ℝ → ℝ) (hm : PathCharge p ks o m) :
    HasDerivAt (pathEnergy p ks E o m) (restarted la p ks).1 0 := by
  have h := C70_exact_derivative hla p ks H hk hS hf hr E hE (restarted la p ks).2
    (fun k => C17_restarted_tangent hla p ks k (hk k).ortho (hk k).prec)
    (fun k => C21_restarted_hermitian la p ks k (H k) (hk k).herm (hk k).hx) o ho m hm
  rwa [droppedSlope_gapped p ks _ hg, add_zero, ← C18_restarted_slope hla p ks
    (fun k => (hk k).ortho) (fun k => (hk k).prec)] at h

/-- **C70.** So is the slope after a conjugation, whatever the rotation and the old orbital direction
are, if the old pseudo-Hamiltonian direction is Hermitian (which it is, `C21`). -/
theorem C70_conjugated_slope_partial {la : Lapack} (hla : LapackOk la) (p : DirParams)
    (ks : (k : Fin K) → KIn (n k) (b k)) (H : (k : Fin K) → Mat (n k) (n k))
    (hk : ∀ k, Physical (ks k) (H k)) (hS : ∀ k, (ks k).S.IsHermitian) (hf : Occupied p ks)
    (hr : Regular p ks) (hg : Gapped ks) (E : ((k : Fin K) → Mat (n k) (n k)) → ℝ)
    (hE : Hamiltonian (fun k => (ks k).wk) E (fun k => densityMat (ks k).X (ks k).f) H)
    (frOld : ℝ) (hfr : frOld ≠ 0) (old : Dir n b) (hold : ∀ k, (old.zeta k).IsHermitian)
    (ul : (k : Fin K) → Mat (b k) (b k))
    (o : ℝ → (k : Fin K) → GeoOut (n k) (b k))
    (ho : SearchPath la ks (conjugated la p frOld ks old ul).2.2 o)
    (m : ℝ → ℝ) (hm : PathCharge p ks o m) :
    HasDerivAt (pathEnergy p ks E o m) (conjugated la p frOld ks old ul).2.1 0 := by
  have h := C70_exact_derivative hla p ks H hk hS hf hr E hE (conjugated la p frOld ks old ul).2.2
    (fun k => C17_conjugated_tangent hla p frOld ks old ul k (hk k).ortho (hk k).prec)
    (fun k => C21_conjugated_hermitian la p frOld ks old ul k (H k) (hk k).herm (hk k).hx (hold k)) o ho m hm
  rwa [droppedSlope_gapped p ks _ hg, add_zero, ← C18_conjugated_slope hla p frOld hfr ks old ul
    (fun k => (hk k).ortho) (fun k => (hk k).prec)] at h

/-- **C70.** With any bands, degenerate or not: after a restart with a monotone smearing the free
energy falls at least as fast as the slope says. -/
theorem C70_restarted_falls_faster {la : Lapack} (hla : LapackOk la) (p : DirParams)
    (ks : (k : Fin K) → KIn (n k) (b k)) (H : (k : Fin K) → Mat (n k) (n k))
    (hk : ∀ k, Physical (ks k) (H k)) (hS : ∀ k, (ks k).S.IsHermitian) (hf : Occupied p ks)
    (hr : Regular p ks) (htm : Monotonic p.t) (hmo : 0 ≤ p.mo) (hkappa : 0 ≤ p.kappa)
    (E : ((k : Fin K) → Mat (n k) (n k)) → ℝ)
    (hE : Hamiltonian (fun k => (ks k).wk) E (fun k => densityMat (ks k).X (ks k).f) H)
    (o : ℝ → (k : Fin K) → GeoOut (n k) (b k)) (ho : SearchPath la ks (restarted la p ks).2 o)
    (m : ℝ → ℝ) (hm : PathCharge p ks o m) :
    ∃ d, HasDerivAt (pathEnergy p ks E o m) d 0 ∧ d ≤ (restarted la p ks).1 := by
  have h := C70_exact_derivative hla p ks H hk hS hf hr E hE (restarted la p ks).2
    (fun k => C17_restarted_tangent hla p ks k (hk k).ortho (hk k).prec)
    (fun k => C21_restarted_hermitian la p ks k (H k) (hk k).herm (hk k).hx) o ho m hm
  rw [← C18_restarted_slope hla p ks (fun k => (hk k).ortho) (fun k => (hk k).prec)] at h
  refine ⟨_, h, add_le_of_nonpos_right (droppedSlope_restarted la p ks hr htm hmo hkappa fun k => (hk k).weight)⟩

/-- **C70.** With a monotone smearing the chemical potential that keeps the number of electrons
exists along the path and is differentiable whatever choice is made, so the assumption on `m` holds. -/
theorem C70_chemical_potential {la : Lapack} (hla : LapackOk la) (p : DirParams)
    (ks : (k : Fin K) → KIn (n k) (b k)) (hr : Regular p ks) (htm : Monotonic p.t) (hmo : 0 ≤ p.mo)
    (hw : ∀ k, 0 ≤ (ks k).wk) (z : Dir n b) (hz : ∀ k, (z.zeta k).IsHermitian)
    (o : ℝ → (k : Fin K) → GeoOut (n k) (b k)) (ho : SearchPath la ks z o) :
    (∃ m, PathCharge p ks o m) ∧ ∀ m : ℝ → ℝ,
      (∀ᶠ s : ℝ in 𝓝 0, charge p.t p.T p.mo (fun k => (ks k).wk) (fun k => (o s k).ek) (m s)
        = charge p.t p.T p.mo (fun k => (ks k).wk) (fun k => (ks k).e) p.mu) → PathCharge p ks o m := by
  refine ⟨mu_exists hla hz ho hr htm hmo hw, fun m hm => ?_⟩
  obtain ⟨h1, h2⟩ := mu_deriv hla hz ho hr htm hmo hw hm
  exact ⟨h1, h2.differentiableAt, hm⟩

/-- **C70.** Steps of every length succeed if the eigensolver does, so there is a path. -/
theorem C70_path_exists {la : Lapack} (hla : EighTotal la) (ks : (k : Fin K) → KIn (n k) (b k))
    (hS : ∀ k, (ks k).S.PosSemidef) (ho : ∀ k, SOrtho (ks k).S (ks k).X) (z : Dir n b)
    (ht : ∀ k, Tangent (ks k).S (ks k).X (z.zx k)) (hz : ∀ k, (z.zeta k).IsHermitian) :
    ∃ o, SearchPath la ks z o := by
  have h := fun (s : ℝ) k => C19_step_defined hla (hS k) (ho k) (ht k) (makeDiag_hermitian (ks k).e) (hz k) s
  choose o ho using h
  exact ⟨o, Eventually.of_forall ho⟩

/-! ## A concrete case: two bands with pseudo-energies `0` and `g`, coupled by the Hamiltonian -/

/-- energy of non-interacting electrons with Hamiltonians `H` -/
noncomputable def traceEnergy (w : Fin K → ℝ) (H D : (k : Fin K) → Mat (n k) (n k)) : ℝ :=
  ∑ k, w k * (H k * D k).trace.re

theorem traceEnergy_hamiltonian (w : Fin K → ℝ) (H D0 : (k : Fin K) → Mat (n k) (n k)) :
    Hamiltonian w (traceEnergy w H) D0 H := by
  intro D D' _ _ hD
  refine HasDerivAt.fun_sum fun k _ => HasDerivAt.const_mul _ ?_
  have h1 : HasDerivAt (fun s => (H k * D s k).trace) ((H k * D' k).trace) 0 := by
    simp only [trace, diag_apply, mul_apply]
    exact HasDerivAt.fun_sum fun i _ => HasDerivAt.fun_sum fun j _ => (hD k j i).const_mul _
  exact Complex.reCLM.hasFDerivAt.comp_hasDerivAt (0 : ℝ) h1

/-- Gaussian smearing with `kT = 1` -/
noncomputable def exGP : DirParams := { t := .gauss, T := 1 / kB, kappa := 1, mo := 2, mu := 0 }

def exGH : Mat 2 2 := !![0, 1; 1, 0]

noncomputable def exG (g : ℝ) : KIn 2 2 where
  X := 1
  hx := exGH
  e := ![0, g]
  f := fun i => (smearFns exGP.t).fn ((exGP.mu - ![0, g] i) / (kB * exGP.T)) exGP.mo
  hii := fun _ => 0
  S := 1
  P := 1
  wk := 1

theorem exG_physical (g : ℝ) : Physical (exG g) exGH where
  herm := by ext i j; fin_cases i <;> fin_cases j <;> simp [exGH]
  hx := by simp [exG]
  bands := fun i => by fin_cases i <;> simp [exG, exGH]
  ortho := by simp [SOrtho, exG]
  prec := PosDef.one
  weight := by norm_num [exG]

theorem exG_occupied (g : ℝ) : Occupied exGP (fun _ : Fin 1 => exG g) := fun _ _ => rfl

theorem exG_kT : (kB : ℝ) * exGP.T = 1 := by
  show (kB : ℝ) * (1 / kB) = 1
  rw [mul_one_div, div_self kB_pos.ne']

theorem exG_regular (g : ℝ) : Regular exGP (fun _ : Fin 1 => exG g) where
  notCold := by simp [exGP]
  spline := by simp [exGP]
  temp := one_div_pos.2 kB_pos
  cutoff := fun _ _ => trivial
  dos := by
    have h0 : ∀ x, 0 ≤ (smearFns exGP.t).delta x exGP.mo := fun x =>
      delta_nonneg .gauss trivial x 2 (by norm_num)
    have h1 : dmuDeta (smearFns exGP.t) (fun _ : Fin 1 => (exG g).e) (fun _ => (exG g).wk) exGP.mu exGP.T
        exGP.mo = (smearFns exGP.t).delta 0 exGP.mo + (smearFns exGP.t).delta g exGP.mo := by
      simp only [dmuDeta, exG_kT, Fin.sum_univ_two, Finset.univ_unique, Finset.sum_singleton]
      simp [exG, exGP]
    have h2 : 1 / 10 ^ 12 ≤ (smearFns exGP.t).delta 0 exGP.mo := by
      show _ ≤ gaussDelta 0 2
      have h3 : √Real.pi ≤ 2 := by
        rw [Real.sqrt_le_left (by norm_num)]; linarith [Real.pi_le_four]
      have h4 : 0 < √Real.pi := Real.sqrt_pos.2 Real.pi_pos
      rw [gaussDelta, mul_zero, Real.exp_zero, mul_one, le_div_iff₀ h4]
      linarith
    have h5 : 0 ≤ dmuDeta (smearFns exGP.t) (fun _ : Fin 1 => (exG g).e) (fun _ => (exG g).wk) exGP.mu
        exGP.T exGP.mo := by rw [h1]; exact add_nonneg (h0 _) (h0 _)
    rw [abs_of_nonneg h5, h1]
    linarith [h0 g]

theorem exG_gapped : Gapped (fun _ : Fin 1 => exG 1) := by
  intro k i j h
  fin_cases i <;> fin_cases j <;> simp_all [exG] <;> norm_num

/-- path and chemical potential of the concrete case -/
theorem exG_path (g : ℝ) : ∃ o m,
    SearchPath refLapack (fun _ : Fin 1 => exG g) (restarted refLapack exGP fun _ => exG g).2 o ∧
    PathCharge exGP (fun _ : Fin 1 => exG g) o m := by
  have hz := fun k => C21_restarted_hermitian refLapack exGP (fun _ : Fin 1 => exG g) k exGH
    (exG_physical g).herm (exG_physical g).hx
  obtain ⟨o, ho⟩ := C70_path_exists refLapack_total (fun _ : Fin 1 => exG g)
    (fun _ => PosDef.one.posSemidef) (fun _ => (exG_physical g).ortho)
    (restarted refLapack exGP fun _ => exG g).2
    (fun k => C17_restarted_tangent refLapack_ok exGP (fun _ : Fin 1 => exG g) k (exG_physical g).ortho (exG_physical g).prec) hz
  obtain ⟨m, hm⟩ := (C70_chemical_potential refLapack_ok exGP (fun _ : Fin 1 => exG g) (exG_regular g)
    trivial (by norm_num [exGP]) (fun _ => by norm_num [exG]) _ hz o ho).1
  exact ⟨o, m, ho, hm⟩

/-- all hypotheses of `C70_restarted_slope_partial` and `C70_restarted_falls_faster` -/
example : LapackOk refLapack ∧ (∀ _ : Fin 1, Physical (exG 1) exGH) ∧
    (∀ _ : Fin 1, (exG 1).S.IsHermitian) ∧ Occupied exGP (fun _ : Fin 1 => exG 1) ∧
    Regular exGP (fun _ : Fin 1 => exG 1) ∧ Gapped (fun _ : Fin 1 => exG 1) ∧
    Monotonic exGP.t ∧ 0 ≤ exGP.mo ∧ 0 ≤ exGP.kappa ∧
    Hamiltonian (fun _ : Fin 1 => (exG 1).wk) (traceEnergy (fun _ => 1) fun _ => exGH)
      (fun _ => densityMat (exG 1).X (exG 1).f) (fun _ => exGH) ∧
    ∃ o m, SearchPath refLapack (fun _ : Fin 1 => exG 1) (restarted refLapack exGP fun _ => exG 1).2 o ∧
      PathCharge exGP (fun _ : Fin 1 => exG 1) o m :=
  ⟨refLapack_ok, fun _ => exG_physical 1, fun _ => PosDef.one.isHermitian, exG_occupied 1, exG_regular 1,
    exG_gapped, trivial, by norm_num [exGP], by norm_num [exGP],
    traceEnergy_hamiltonian (fun _ => 1) (fun _ => exGH) _, exG_path 1⟩

/-- the further hypotheses of `C70_conjugated_slope_partial`, with a previous direction that is not
zero -/
example : ∃ old : Dir (K := 1) (fun _ => 2) (fun _ => 2), (∀ k, (old.zeta k).IsHermitian) ∧ old.zeta 0 ≠ 0 ∧
    ∃ o m, SearchPath refLapack (fun _ : Fin 1 => exG 1)
      (conjugated refLapack exGP 1 (fun _ => exG 1) old fun _ => 1).2.2 o ∧
      PathCharge exGP (fun _ : Fin 1 => exG 1) o m := by
  have hold : (1 : Mat 2 2).IsHermitian := isHermitian_one
  refine ⟨{ zx := fun _ => 1, zeta := fun _ => 1 }, fun _ => hold, one_ne_zero, ?_⟩
  have hz := fun k => C21_conjugated_hermitian refLapack exGP 1 (fun _ : Fin 1 => exG 1)
    { zx := fun _ => 1, zeta := fun _ => 1 } (fun _ => 1) k exGH (exG_physical 1).herm (exG_physical 1).hx hold
  obtain ⟨o, ho⟩ := C70_path_exists refLapack_total (fun _ : Fin 1 => exG 1)
    (fun _ => PosDef.one.posSemidef) (fun _ => (exG_physical 1).ortho) _
    (fun k => C17_conjugated_tangent refLapack_ok exGP 1 (fun _ : Fin 1 => exG 1)
      { zx := fun _ => 1, zeta := fun _ => 1 } (fun _ => 1) k (exG_physical 1).ortho (exG_physical 1).prec) hz
  obtain ⟨m, hm⟩ := (C70_chemical_potential refLapack_ok exGP (fun _ : Fin 1 => exG 1) (exG_regular 1)
    trivial (by norm_num [exGP]) (fun _ => by norm_num [exG]) _ hz o ho).1
  exact ⟨o, m, ho, hm⟩

/-- **C70 fails for degenerate bands.** Two bands with the same pseudo-energy, coupled by the
Hamiltonian: all assumptions hold, and the slope is not the derivative of the free energy along any
path of trial steps. -/
theorem C70_not_degenerate :
    LapackOk refLapack ∧ (∀ _ : Fin 1, Physical (exG 0) exGH) ∧ Occupied exGP (fun _ : Fin 1 => exG 0) ∧
    Regular exGP (fun _ : Fin 1 => exG 0) ∧
    Hamiltonian (fun _ : Fin 1 => (exG 0).wk) (traceEnergy (fun _ => 1) fun _ => exGH)
      (fun _ => densityMat (exG 0).X (exG 0).f) (fun _ => exGH) ∧
    (∃ o m, SearchPath refLapack (fun _ : Fin 1 => exG 0) (restarted refLapack exGP fun _ => exG 0).2 o ∧
      PathCharge exGP (fun _ : Fin 1 => exG 0) o m) ∧
    ∀ o m, SearchPath refLapack (fun _ : Fin 1 => exG 0) (restarted refLapack exGP fun _ => exG 0).2 o →
      PathCharge exGP (fun _ : Fin 1 => exG 0) o m →
      ¬ HasDerivAt (pathEnergy exGP (fun _ : Fin 1 => exG 0) (traceEnergy (fun _ => 1) fun _ => exGH) o m)
        (restarted refLapack exGP fun _ : Fin 1 => exG 0).1 0 := by
  have hE := traceEnergy_hamiltonian (fun _ : Fin 1 => 1) (fun _ => exGH)
    (fun _ => densityMat (exG 0).X (exG 0).f)
  refine ⟨refLapack_ok, fun _ => exG_physical 0, exG_occupied 0, exG_regular 0, hE, exG_path 0,
    fun o m ho hm hd => ?_⟩
  have h := C70_exact_derivative refLapack_ok exGP (fun _ : Fin 1 => exG 0) (fun _ => exGH)
    (fun _ => exG_physical 0) (fun _ => PosDef.one.isHermitian) (exG_occupied 0) (exG_regular 0) _ hE
    (restarted refLapack exGP fun _ => exG 0).2
    (fun k => C17_restarted_tangent refLapack_ok exGP (fun _ : Fin 1 => exG 0) k (exG_physical 0).ortho (exG_physical 0).prec)
    (fun k => C21_restarted_hermitian refLapack exGP (fun _ : Fin 1 => exG 0) k exGH (exG_physical 0).herm (exG_physical 0).hx)
    o ho m hm
  rw [← C18_restarted_slope refLapack_ok exGP (fun _ : Fin 1 => exG 0) (fun _ => (exG_physical 0).ortho)
    (fun _ => (exG_physical 0).prec)] at h
  have h0 : droppedSlope exGP (fun _ : Fin 1 => exG 0) (restarted refLapack exGP fun _ => exG 0).2 = 0 := by
    have := hd.unique h
    linarith
  have hz : ∀ i j : Fin 2, i ≠ j → (restarted refLapack exGP fun _ : Fin 1 => exG 0).2.zeta 0 i j = 1 := by
    intro i j hij
    show deltaEta 1 (innerM (1 : Mat 2 2) exGH ((1 : ℝ) : ℂ)) _ 1 i j = 1
    rw [deltaEta, if_neg hij, innerM]
    fin_cases i <;> fin_cases j <;> simp_all [exGH]
  have hd := (C08_delta_is_derivative exGP.t exGP.mo 0 trivial).deriv
  have hpos : 0 < (smearFns exGP.t).delta 0 exGP.mo := by
    show 0 < gaussDelta 0 2
    rw [gaussDelta]
    have := Real.pi_pos
    positivity
  rw [droppedSlope] at h0
  simp only [exG_kT, Finset.univ_unique, Finset.sum_singleton, Fin.sum_univ_two, Fin.default_eq_zero] at h0
  rw [hz 0 1 (by decide), hz 1 0 (by decide)] at h0
  simp only [show exGP.mu = 0 from rfl, exG, exGH] at h0
  simp at h0
  linarith

end Nlcg
