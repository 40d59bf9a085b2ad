import Verif.Proofs.Slope
import Mathlib.Topology.Order.IntermediateValue
import Mathlib.Topology.MetricSpace.HausdorffDistance

/-!
# The chemical potential along a search path
-/

namespace Nlcg
open Matrix Spec Filter Topology ComplexOrder

theorem smear_mono (t : SmearType) (ht : Monotonic t) {mo : ℝ} (h : 0 ≤ mo) :
    Monotone fun x => (smearFns t).fn x mo := by
  cases t with
  | fermiDirac => exact fdFn_mono h
  | gaussianSpline => exact gsFn_mono h
  | gauss => exact gaussFn_mono h
  | methfesselPaxton => exact ht.elim
  | cold => exact ht.elim

section onek
variable {N B : ℕ}

/-- at the start the pseudo-energies are those of the diagonal, up to order -/
theorem bandSum_zero {la : Lapack} (hla : LapackOk la) {X : Mat N B} {e : Fin B → ℝ} {zx : Mat N B}
    {zeta : Mat B B} {S : Mat N N} {o : ℝ → GeoOut N B} (hz : zeta.IsHermitian)
    (h : GeoPath la X e zx zeta S o) (fn : ℝ → ℝ) : ∑ l, fn ((o 0).ek l) = ∑ i, fn (e i) := by
  have he := (h.eig hla hz).self_of_nhds
  rw [matFn_trace he, matFn_diag he (a := e) (by rw [Complex.ofReal_zero, zero_smul, add_zero]),
    Complex.re_sum]
  refine Finset.sum_congr rfl fun i _ => ?_
  rw [rdiag, diagonal_apply_eq, Complex.ofReal_re]

/-- the pseudo-energies stay close to those of the start -/
theorem ek_close {la : Lapack} (hla : LapackOk la) {X : Mat N B} {e : Fin B → ℝ} {zx : Mat N B}
    {zeta : Mat B B} {S : Mat N N} {o : ℝ → GeoOut N B} (hz : zeta.IsHermitian)
    (h : GeoPath la X e zx zeta S o) {ε : ℝ} (hε : 0 < ε) :
    ∀ᶠ s : ℝ in 𝓝 0, ∀ l, ∃ i, |(o s).ek l - e i| < ε := by
  have he := h.eig hla hz
  have hA : ∀ i j, Tendsto (fun s : ℝ => (rdiag e + (s : ℂ) • zeta) i j) (𝓝 0) (𝓝 ((rdiag e) i j)) := by
    intro i j
    have := (MD.line (rdiag e) zeta i j).continuousAt.tendsto
    simpa using this
  rcases isEmpty_or_nonempty (Fin B) with hB | hB
  · exact Eventually.of_forall fun s l => hB.elim l
  have hcont : Continuous fun x : ℝ => Metric.infDist x (Set.range e) := Metric.continuous_infDist_pt _
  have ht := fun i => tendsto_matFn hA he (r := fun x => Metric.infDist x (Set.range e))
    (fun i => hcont.continuousAt) i i
  have hs : Tendsto (fun s => ∑ l, Metric.infDist ((o s).ek l) (Set.range e)) (𝓝 0) (𝓝 0) := by
    have h1 := tendsto_finsetSum Finset.univ fun i _ => ht i
    have h2 := (Complex.continuous_re.tendsto _).comp h1
    have h3 : (∑ i, if i = i then ((Metric.infDist (e i) (Set.range e) : ℝ) : ℂ) else 0).re = 0 := by
      rw [Complex.re_sum]
      refine Finset.sum_eq_zero fun i _ => ?_
      rw [if_pos rfl, Complex.ofReal_re, Metric.infDist_zero_of_mem (Set.mem_range_self i)]
    rw [h3] at h2
    exact h2.congr' (he.mono fun s hs => (matFn_trace hs _).symm)
  filter_upwards [hs.eventually (gt_mem_nhds hε)] with s hs l
  have h1 : Metric.infDist ((o s).ek l) (Set.range e) < ε :=
    (Finset.single_le_sum (f := fun l => Metric.infDist ((o s).ek l) (Set.range e))
      (fun _ _ => Metric.infDist_nonneg) (Finset.mem_univ l)).trans_lt hs
  obtain ⟨_, ⟨i, rfl⟩, hi⟩ := (Metric.infDist_lt_iff (Set.range_nonempty e)).1 h1
  exact ⟨i, by rwa [Real.dist_eq] at hi⟩

end onek

variable {K : ℕ} {n b : Fin K → ℕ}

/-- number of electrons after a step `s` with chemical potential `x` -/
noncomputable abbrev qAt (p : DirParams) (ks : (k : Fin K) → KIn (n k) (b k))
    (o : ℝ → (k : Fin K) → GeoOut (n k) (b k)) (s x : ℝ) : ℝ :=
  charge p.t p.T p.mo (fun k => (ks k).wk) (fun k => (o s k).ek) x

/-- number of electrons at the start -/
noncomputable abbrev qStart (p : DirParams) (ks : (k : Fin K) → KIn (n k) (b k)) (x : ℝ) : ℝ :=
  charge p.t p.T p.mo (fun k => (ks k).wk) (fun k => (ks k).e) x

/-- the rate at which the chemical potential moves -/
noncomputable def muRate (p : DirParams) (ks : (k : Fin K) → KIn (n k) (b k)) (z : Dir n b) : ℝ :=
  (∑ k, (ks k).wk * ∑ i, (smearFns p.t).delta ((p.mu - (ks k).e i) / (kB * p.T)) p.mo
    * (z.zeta k i i).re) / deltaSum p.t p.T p.mo (fun k => (ks k).wk) (fun k => (ks k).e) p.mu

theorem Spec.SearchPath.geo {la : Lapack} {ks : (k : Fin K) → KIn (n k) (b k)} {z : Dir n b}
    {o : ℝ → (k : Fin K) → GeoOut (n k) (b k)} (ho : SearchPath la ks z o) (k : Fin K) :
    GeoPath la (ks k).X (ks k).e (z.zx k) (z.zeta k) (ks k).S fun s => o s k :=
  ho.mono fun s hs => by rw [rdiag, ← makeDiag_eq]; exact hs k

section
variable {la : Lapack} (hla : LapackOk la) {p : DirParams} {ks : (k : Fin K) → KIn (n k) (b k)}
  {z : Dir n b} (hz : ∀ k, (z.zeta k).IsHermitian) {o : ℝ → (k : Fin K) → GeoOut (n k) (b k)}
  (ho : SearchPath la ks z o) (hr : Regular p ks)

include hla hz ho in
theorem qAt_zero (x : ℝ) : qAt p ks o 0 x = qStart p ks x := by
  refine Finset.sum_congr rfl fun k _ => ?_
  congr 1
  exact bandSum_zero hla (hz k) (ho.geo k) fun e => (smearFns p.t).fn ((x - e) / (kB * p.T)) p.mo

include hr in
theorem qStart_deriv : HasDerivAt (qStart p ks)
    (deltaSum p.t p.T p.mo (fun k => (ks k).wk) (fun k => (ks k).e) p.mu / (kB * p.T)) p.mu := by
  rw [deltaSum, Finset.sum_div]
  refine HasDerivAt.fun_sum fun k _ => ?_
  rw [mul_div_assoc, Finset.sum_div]
  refine HasDerivAt.const_mul _ (HasDerivAt.fun_sum fun i _ => ?_)
  have h1 : HasDerivAt (fun x : ℝ => (x - (ks k).e i) / (kB * p.T)) (1 / (kB * p.T)) p.mu :=
    ((hasDerivAt_id p.mu).sub_const _).div_const _
  have h2 := (C08_delta_is_derivative p.t p.mo _ (hr.cutoff k i)).comp p.mu h1
  rw [mul_one_div] at h2
  exact h2

include hla hz ho hr in
/-- charge along a line of chemical potentials -/
theorem qAt_line (r : ℝ) : HasDerivAt (fun s => qAt p ks o s (p.mu + s * (muRate p ks z + r)))
    (r * deltaSum p.t p.T p.mo (fun k => (ks k).wk) (fun k => (ks k).e) p.mu / (kB * p.T)) 0 := by
  have hD0 : deltaSum p.t p.T p.mo (fun k => (ks k).wk) (fun k => (ks k).e) p.mu ≠ 0 := by
    have := hr.dos
    rw [dmuDeta_eq p.t hr.notCold] at this
    intro h0; rw [h0, abs_zero] at this; norm_num at this
  have hm : HasDerivAt (fun s : ℝ => p.mu + s * (muRate p ks z + r)) (muRate p ks z + r) 0 := by
    have := ((hasDerivAt_id (0 : ℝ)).mul_const (muRate p ks z + r)).const_add p.mu
    rwa [one_mul] at this
  have h1 : HasDerivAt (fun s => qAt p ks o s (p.mu + s * (muRate p ks z + r)))
      (∑ k, (ks k).wk * ∑ i, (smearFns p.t).delta ((p.mu - (ks k).e i) / (kB * p.T)) p.mo
        * (((muRate p ks z + r) - (z.zeta k i i).re) / (kB * p.T))) 0 := by
    refine HasDerivAt.fun_sum fun k _ => HasDerivAt.const_mul _ ?_
    refine bandSum_deriv (fn := fun y => (smearFns p.t).fn y p.mo) hla (hz k) (ho.geo k) hm (kB * p.T)
      fun i => ?_
    simp only [zero_mul, add_zero]
    exact C08_delta_is_derivative p.t p.mo _ (hr.cutoff k i)
  refine hd_to h1 (fun _ => rfl) ?_
  simp only [← mul_div_assoc, ← Finset.sum_div]
  congr 1
  have h2 : muRate p ks z * deltaSum p.t p.T p.mo (fun k => (ks k).wk) (fun k => (ks k).e) p.mu
      = ∑ k, (ks k).wk * ∑ i, (smearFns p.t).delta ((p.mu - (ks k).e i) / (kB * p.T)) p.mo
    * (z.zeta k i i).re := by rw [muRate, div_mul_cancel₀ _ hD0]
  have h3 : ∑ k, (ks k).wk * ∑ i, (smearFns p.t).delta ((p.mu - (ks k).e i) / (kB * p.T)) p.mo
        * ((muRate p ks z + r) - (z.zeta k i i).re)
      = (muRate p ks z + r) * deltaSum p.t p.T p.mo (fun k => (ks k).wk) (fun k => (ks k).e) p.mu
        - ∑ k, (ks k).wk * ∑ i, (smearFns p.t).delta ((p.mu - (ks k).e i) / (kB * p.T)) p.mo
    * (z.zeta k i i).re := by
    rw [deltaSum, Finset.mul_sum, ← Finset.sum_sub_distrib]
    refine Finset.sum_congr rfl fun k _ => ?_
    rw [mul_left_comm, ← mul_sub, Finset.mul_sum (a := muRate p ks z + r), ← Finset.sum_sub_distrib]
    congr 1
    exact Finset.sum_congr rfl fun i _ => by ring
  rw [h3, ← h2]
  ring

/-- a function with positive derivative is above its value to the right and below to the left -/
theorem pos_deriv {f : ℝ → ℝ} {d : ℝ} (h : HasDerivAt f d 0) (hd : 0 < d) :
    ∀ᶠ s : ℝ in 𝓝 0, (0 < s → f 0 < f s) ∧ (s < 0 → f s < f 0) := by
  have h1 := hasDerivAt_iff_tendsto_slope.1 h
  have h2 := h1.eventually (lt_mem_nhds hd)
  rw [eventually_nhdsWithin_iff] at h2
  filter_upwards [h2] with s hs
  constructor
  · intro h0
    have := hs h0.ne'
    rw [slope_def_field, sub_zero] at this
    have := (div_pos_iff_of_pos_right h0).1 this
    linarith
  · intro h0
    have := hs h0.ne
    rw [slope_def_field, sub_zero] at this
    rcases div_pos_iff.1 this with h3 | h3
    · exact absurd h3.2 (not_lt.2 h0.le)
    · linarith [h3.1]

theorem neg_deriv {f : ℝ → ℝ} {d : ℝ} (h : HasDerivAt f d 0) (hd : d < 0) :
    ∀ᶠ s : ℝ in 𝓝 0, (0 < s → f s < f 0) ∧ (s < 0 → f 0 < f s) := by
  filter_upwards [pos_deriv h.neg (neg_pos.2 hd)] with s hs
  exact ⟨fun h0 => neg_lt_neg_iff.1 (hs.1 h0), fun h0 => neg_lt_neg_iff.1 (hs.2 h0)⟩

end

section mono
variable {la : Lapack} (hla : LapackOk la) {p : DirParams} {ks : (k : Fin K) → KIn (n k) (b k)}
  {z : Dir n b} (hz : ∀ k, (z.zeta k).IsHermitian) {o : ℝ → (k : Fin K) → GeoOut (n k) (b k)}
  (ho : SearchPath la ks z o) (hr : Regular p ks) (ht : Monotonic p.t) (hmo : 0 ≤ p.mo)
  (hw : ∀ k, 0 ≤ (ks k).wk)

include hr ht hmo hw in
theorem deltaSum_pos : 0 < deltaSum p.t p.T p.mo (fun k => (ks k).wk) (fun k => (ks k).e) p.mu := by
  have h1 : 0 ≤ deltaSum p.t p.T p.mo (fun k => (ks k).wk) (fun k => (ks k).e) p.mu :=
    Finset.sum_nonneg fun k _ => mul_nonneg (hw k) (Finset.sum_nonneg fun i _ => delta_nonneg p.t ht _ _ hmo)
  have h2 := hr.dos
  rw [dmuDeta_eq p.t hr.notCold, abs_of_nonneg h1] at h2
  exact lt_of_lt_of_le (by norm_num) h2

include hr ht hmo hw in
theorem charge_mono (e : Bands b) :
    Monotone (charge p.t p.T p.mo (fun k => (ks k).wk) e) := by
  intro x y hxy
  refine Finset.sum_le_sum fun k _ => mul_le_mul_of_nonneg_left (Finset.sum_le_sum fun i _ => ?_) (hw k)
  exact smear_mono p.t ht hmo (div_le_div_of_nonneg_right (by linarith) (mul_pos kB_pos hr.temp).le)

include hla hz ho hr ht hmo hw in
/-- the two lines enclose the chemical potential -/
theorem enclose {ε : ℝ} (hε : 0 < ε) : ∀ᶠ s : ℝ in 𝓝 0,
    (0 < s → qAt p ks o s (p.mu + s * (muRate p ks z - ε)) < qStart p ks p.mu
      ∧ qStart p ks p.mu < qAt p ks o s (p.mu + s * (muRate p ks z + ε)))
    ∧ (s < 0 → qAt p ks o s (p.mu + s * (muRate p ks z + ε)) < qStart p ks p.mu
      ∧ qStart p ks p.mu < qAt p ks o s (p.mu + s * (muRate p ks z - ε))) := by
  have hD := deltaSum_pos hr ht hmo hw
  have hkT := mul_pos kB_pos hr.temp
  have h1 := pos_deriv (qAt_line hla hz ho hr ε) (by positivity)
  have h2 := neg_deriv (qAt_line hla hz ho hr (-ε)) (by
    rw [neg_mul, neg_div]; exact neg_neg_of_pos (by positivity))
  simp only [zero_mul, add_zero, qAt_zero hla hz ho, ← sub_eq_add_neg] at h1 h2
  filter_upwards [h1, h2] with s h1 h2
  exact ⟨fun h => ⟨h2.1 h, h1.1 h⟩, fun h => ⟨h1.2 h, h2.2 h⟩⟩

include hla hz ho hr ht hmo hw in
/-- any charge-conserving chemical potential is differentiable -/
theorem mu_deriv {m : ℝ → ℝ}
    (hm : ∀ᶠ s : ℝ in 𝓝 0, qAt p ks o s (m s) = qStart p ks p.mu) :
    m 0 = p.mu ∧ HasDerivAt m (muRate p ks z) 0 := by
  have hD := deltaSum_pos hr ht hmo hw
  have hkT := mul_pos kB_pos hr.temp
  have h0 : m 0 = p.mu := by
    have he := hm.self_of_nhds
    rw [qAt_zero hla hz ho] at he
    have hq := qStart_deriv hr
    have hsh : HasDerivAt (fun s : ℝ => qStart p ks (p.mu + s))
        (deltaSum p.t p.T p.mo (fun k => (ks k).wk) (fun k => (ks k).e) p.mu / (kB * p.T)) 0 := by
      have hq' : HasDerivAt (qStart p ks)
        (deltaSum p.t p.T p.mo (fun k => (ks k).wk) (fun k => (ks k).e) p.mu / (kB * p.T))
        (p.mu + 0) := by rwa [add_zero]
      exact hq'.comp_const_add p.mu 0
    have hp := pos_deriv hsh (div_pos hD hkT)
    simp only [add_zero] at hp
    obtain ⟨r, hr0, hball⟩ := Metric.eventually_nhds_iff.1 hp
    have hmono : Monotone (qStart p ks) := charge_mono hr ht hmo hw _
    rcases lt_trichotomy (m 0) p.mu with h | h | h
    · exfalso
      have h1 : 0 < min (r / 2) (p.mu - m 0) := lt_min (by linarith) (by linarith)
      have h2 := (hball (y := -min (r / 2) (p.mu - m 0)) (by
        rw [Real.dist_eq, sub_zero, abs_neg, abs_of_pos h1]
        exact (min_le_left _ _).trans_lt (by linarith))).2 (by linarith)
      have h3 : qStart p ks (m 0) ≤ qStart p ks (p.mu + -min (r / 2) (p.mu - m 0)) :=
        hmono (by linarith [min_le_right (r / 2) (p.mu - m 0)])
      linarith
    · exact h
    · exfalso
      have h1 : 0 < min (r / 2) (m 0 - p.mu) := lt_min (by linarith) (by linarith)
      have h2 := (hball (y := min (r / 2) (m 0 - p.mu)) (by
        rw [Real.dist_eq, sub_zero, abs_of_pos h1]
        exact (min_le_left _ _).trans_lt (by linarith))).1 h1
      have h3 : qStart p ks (p.mu + min (r / 2) (m 0 - p.mu)) ≤ qStart p ks (m 0) :=
        hmono (by linarith [min_le_right (r / 2) (m 0 - p.mu)])
      linarith
  refine ⟨h0, ?_⟩
  rw [hasDerivAt_iff_tendsto_slope, Metric.tendsto_nhdsWithin_nhds]
  intro ε hε
  obtain ⟨r, hr0, hball⟩ := Metric.eventually_nhds_iff.1
    ((enclose hla hz ho hr ht hmo hw (half_pos hε)).and hm)
  refine ⟨r, hr0, fun s hs hd => ?_⟩
  obtain ⟨he, hq⟩ := hball hd
  have hmono : Monotone (qAt p ks o s) := charge_mono hr ht hmo hw _
  have key : ∀ a c, qAt p ks o s a < qAt p ks o s c → a < c := fun a c h => by
    by_contra hc
    exact absurd (hmono (not_lt.1 hc)) (not_le.2 h)
  rw [slope_def_field, h0, sub_zero, Real.dist_eq]
  rw [← hq] at he
  rcases lt_or_gt_of_ne (show s ≠ 0 from hs) with hneg | hpos
  · have h1 := key _ _ (he.2 hneg).1
    have h2 := key _ _ (he.2 hneg).2
    rw [abs_lt]
    constructor
    · rw [lt_sub_iff_add_lt, lt_div_iff_of_neg hneg]; nlinarith
    · rw [sub_lt_iff_lt_add, div_lt_iff_of_neg hneg]; nlinarith
  · have h1 := key _ _ (he.1 hpos).1
    have h2 := key _ _ (he.1 hpos).2
    rw [abs_lt]
    constructor
    · rw [lt_sub_iff_add_lt, lt_div_iff₀ hpos]; nlinarith
    · rw [sub_lt_iff_lt_add, div_lt_iff₀ hpos]; nlinarith

include hr in
theorem exists_margin : ∃ r > 0, ∀ k i (y : ℝ), |y - (p.mu - (ks k).e i)| < r → y / (kB * p.T) ∈ inside p.t := by
  have hkT := mul_pos kB_pos hr.temp
  have h1 : ∀ k i, ∀ᶠ y in 𝓝 (p.mu - (ks k).e i), y / (kB * p.T) ∈ inside p.t := fun k i =>
    (continuous_id.div_const (kB * p.T)).continuousAt.eventually
      ((isOpen_inside p.t).mem_nhds (hr.cutoff k i))
  have h2 : ∀ᶠ r : ℝ in 𝓝[>] 0, ∀ k i (y : ℝ), |y - (p.mu - (ks k).e i)| < r → y / (kB * p.T) ∈ inside p.t := by
    refine eventually_all.2 fun k => eventually_all.2 fun i => ?_
    obtain ⟨r, hr0, hb⟩ := Metric.eventually_nhds_iff.1 (h1 k i)
    filter_upwards [Ioo_mem_nhdsGT hr0] with r' hr' y hy
    exact hb (by rw [Real.dist_eq]; exact hy.trans hr'.2)
  obtain ⟨r, hr1, hr2⟩ := (h2.and self_mem_nhdsWithin).exists
  exact ⟨r, hr2, hr1⟩

include hla hz ho hr ht hmo hw in
/-- a charge-conserving chemical potential exists -/
theorem mu_exists : ∃ m, PathCharge p ks o m := by
  have hkT := mul_pos kB_pos hr.temp
  obtain ⟨r, hr0, hmar⟩ := exists_margin hr
  have hclose : ∀ᶠ s : ℝ in 𝓝 0, ∀ k l, ∃ i, |(o s k).ek l - (ks k).e i| < r / 2 :=
    eventually_all.2 fun k => ek_close hla (hz k) (ho.geo k) (half_pos hr0)
  have hsmall : ∀ c : ℝ, ∀ᶠ s : ℝ in 𝓝 0, |s * c| < r / 2 := fun c => by
    have : Tendsto (fun s : ℝ => |s * c|) (𝓝 0) (𝓝 |0 * c|) :=
      ((continuous_id.mul continuous_const).abs).tendsto 0
    rw [zero_mul, abs_zero] at this
    exact this.eventually (gt_mem_nhds (half_pos hr0))
  have hex : ∀ᶠ s : ℝ in 𝓝 0, ∃ x, qAt p ks o s x = qStart p ks p.mu := by
    filter_upwards [hclose, hsmall (muRate p ks z + 1), hsmall (muRate p ks z - 1),
      enclose hla hz ho hr ht hmo hw one_pos] with s hc h1 h2 he
    have hcont : ContinuousOn (qAt p ks o s)
        (Set.uIcc (p.mu + s * (muRate p ks z - 1)) (p.mu + s * (muRate p ks z + 1))) := by
      intro x hx
      have hxr : |x - p.mu| < r / 2 := by
        rw [abs_lt] at h1 h2 ⊢
        rcases Set.mem_uIcc.1 hx with h | h <;> constructor <;> linarith [h.1, h.2]
      refine ContinuousAt.continuousWithinAt ?_
      refine tendsto_finsetSum _ fun k _ => Tendsto.const_mul _ (tendsto_finsetSum _ fun l _ => ?_)
      obtain ⟨i, hi⟩ := hc k l
      have hin : (x - (o s k).ek l) / (kB * p.T) ∈ inside p.t := hmar k i _ (by
        have : x - (o s k).ek l - (p.mu - (ks k).e i) = (x - p.mu) - ((o s k).ek l - (ks k).e i) := by ring
        rw [this]
        exact (abs_sub _ _).trans_lt (by linarith))
      have hd := (C08_delta_is_derivative p.t p.mo _ hin).continuousAt
      have hl : ContinuousAt (fun x : ℝ => (x - (o s k).ek l) / (kB * p.T)) x := by fun_prop
      exact ContinuousAt.comp (f := fun x : ℝ => (x - (o s k).ek l) / (kB * p.T)) hd hl
    rcases lt_trichotomy s 0 with hs | hs | hs
    · obtain ⟨x, -, hx⟩ := intermediate_value_uIcc hcont
        (Set.mem_uIcc.2 (Or.inr ⟨(he.2 hs).1.le, (he.2 hs).2.le⟩))
      exact ⟨x, hx⟩
    · exact ⟨p.mu, by rw [hs, qAt_zero hla hz ho]⟩
    · obtain ⟨x, -, hx⟩ := intermediate_value_uIcc hcont
        (Set.mem_uIcc.2 (Or.inl ⟨(he.1 hs).1.le, (he.1 hs).2.le⟩))
      exact ⟨x, hx⟩
  classical
  have hm : ∀ᶠ s : ℝ in 𝓝 0, qAt p ks o s (if h : ∃ x, qAt p ks o s x = qStart p ks p.mu then h.choose else 0)
      = qStart p ks p.mu := hex.mono fun s hs => by rw [dif_pos hs]; exact hs.choose_spec
  obtain ⟨h1, h2⟩ := mu_deriv hla hz ho hr ht hmo hw
    (m := fun s => if h : ∃ x, qAt p ks o s x = qStart p ks p.mu then h.choose else 0) hm
  exact ⟨_, h1, h2.differentiableAt, hm⟩

end mono

end Nlcg
