import Verif.Proofs.MeanField
import Verif.Props.Density
import Mathlib.Tactic.Module

/-!
# C138: with a convex energy there is one self-consistent density, and runs approach it
-/

namespace Nlcg
open Matrix Spec Real ComplexOrder

section
variable {K : ℕ} {n b : Fin K → ℕ} {η : Type} {host : Host η n b} {c : Cfg n b} {info : Info ℝ}
  {X : Orbitals n b} {f : Bands b} {F : ℝ} {h : η} {E : Orbitals n b → Bands b → ℝ} {t : SmearType} {T mo ne : ℝ}
  {wk : Fin K → ℝ} {H H' S : (k : Fin K) → Mat (n k) (n k)} {V V' : Orbitals n b} {e e' : Bands b} {mu mu' : ℝ}

/-- **C138 (which energies).** A convex function of the densities lies above its tangents: the condition on the energy
is met if `E` is a convex function `G` of Hermitian densities whose derivative at the densities of `V` and `φ`, in
every Hermitian direction, is the expectation value of `H`. -/
theorem C138_convex {G : ((k : Fin K) → Mat (n k) (n k)) → ℝ} (hG : ConvexOn ℝ {D | ∀ k, (D k).IsHermitian} G) {φ : Bands b}
    (hH : ∀ D, (∀ k, (D k).IsHermitian) →
      HasDerivAt (fun x : ℝ => G (densities V φ + x • (D - densities V φ))) (meanOf wk H (D - densities V φ)) 0) :
    AboveTangent S (fun X f => G (densities X f)) mo wk H V φ := fun X f _ _ => by
  set D := densities X f with hD
  set D0 := densities V φ with hD0
  have hDh : ∀ k, (D k).IsHermitian := fun k => densityOf_hermitian _ _
  have hline : ∀ (x : ℝ) k, ((D0 + x • (D - D0)) k).IsHermitian := fun x k => by
    have h1 : (D0 k).IsHermitian := densityOf_hermitian _ _
    rw [Pi.add_apply, Pi.smul_apply, Pi.sub_apply, IsHermitian, conjTranspose_add, conjTranspose_smul, h1.eq,
      ((hDh k).sub h1).eq, star_trivial]
  have hc : ConvexOn ℝ Set.univ fun x : ℝ => G (D0 + x • (D - D0)) := by
    refine ⟨convex_univ, fun x _ y _ p q hp hq hpq => ?_⟩
    have h1 := hG.2 (x := D0 + x • (D - D0)) (hline x) (y := D0 + y • (D - D0)) (hline y) hp hq hpq
    have h2 : p • (D0 + x • (D - D0)) + q • (D0 + y • (D - D0)) = D0 + (p • x + q • y) • (D - D0) := by
      obtain rfl : q = 1 - p := by linarith
      simp only [smul_eq_mul]
      module
    rw [h2] at h1
    exact h1
  have h1 := hc.le_slope_of_hasDerivAt (Set.mem_univ 0) (Set.mem_univ 1) one_pos (hH D hDh)
  simp only [slope_def_field, one_smul, zero_smul, add_zero, sub_zero, div_one, add_sub_cancel] at h1
  rw [bandEnergy_density, bandEnergy_density, ← hD, ← hD0]
  have h2 : meanOf wk H (D - D0) = meanOf wk H D - meanOf wk H D0 := by
    simp only [meanOf]
    rw [← Finset.sum_sub_distrib]
    refine Finset.sum_congr rfl fun k _ => ?_
    rw [Pi.sub_apply, Matrix.mul_sub, trace_sub, Complex.sub_re]
    ring
  rw [h2] at h1
  linarith

/-- **C138 (lower bound).** No state has a free energy below that of a self-consistent state. -/
theorem C138_lowest (hs : Setting host c) (ht : Monotonic c.t) (hT : 0 < c.T) (hm : 0 < c.mo)
    (hsp : c.t = .gaussianSpline → 1 ≤ c.mo) {p : OccParams ℝ} {key : Fin K → Key} (hk : Function.Injective key)
    (hc : c.occ = searchOcc false c.t p key c.wk) (hM : MeanField c.S E c.t c.T c.mo c.wk p.ne H V e mu) :
    LowestUpTo c E (|mu| * p.tol + kB * c.T * c.mo * cutoffError c.t * ∑ k, c.wk k * b k)
      (fieldFree E c.t c.T c.mo c.wk V e mu) := fun X ek nu ⟨hX, hocc⟩ => by
  have h1 := C99_variational ht hT hm.le hsp (fun k => (hs.weights k).le) hM.herm hs.overlap hM.lowest mu hX ek nu
  have h2 := hM.tangent X (occs c.t c.T c.mo ek nu) hX fun k i => C06_occupation_bounds c.t ht _ c.mo hm.le
  rw [hc] at hocc
  have hch := (searchOcc_charge hk hocc).1
  have h4 : |mu * (electrons c.wk (occs c.t c.T c.mo ek nu) - p.ne)| ≤ |mu| * p.tol := by
    rw [abs_mul, abs_sub_comm]
    exact mul_le_mul_of_nonneg_left hch.le (abs_nonneg _)
  have h5 := (abs_le.1 h4).1
  rw [hM.count, exactFree_split hM.lowest mu] at h1
  simp only [fieldFree, stateFree, entropySum]
  linarith

/-- **C138 (any state).** The distance of the density of any state from the self-consistent one is bounded by the
excess of its free energy. -/
theorem C138_returned (hs : Setting host c) (ht : Monotonic c.t) (hT : 0 < c.T) (hm : 0 < c.mo)
    (hsp : c.t = .gaussianSpline → 1 ≤ c.mo) {g : ℝ} (hg : 0 < g)
    {p : OccParams ℝ} {key : Fin K → Key} (hk : Function.Injective key) (hc : c.occ = searchOcc false c.t p key c.wk)
    (hM : MeanField c.S E c.t c.T c.mo c.wk p.ne H V e mu) (hgap : ∀ k, GapAbove (H k) (c.S k) (V k) (e k) g)
    (r : ReturnedState host c E info h F X f) :
    ∑ k, c.wk k * distSq (c.S k) (densityOf (X k) (f k)) (densityOf (V k) (exactOcc c.t c.T c.mo e mu k))
      ≤ densityFactor c.t c.T c.mo g * (F - fieldFree E c.t c.T c.mo c.wk V e mu + |mu| * p.tol
        + kB * c.T * c.mo * cutoffError c.t * ∑ k, c.wk k * b k) := by
  obtain ⟨ek, nu, ⟨hX, hocc⟩, rfl, rfl⟩ := r.state
  have h1 := C137_any_state ht hT hm hsp hg (fun k => (hs.weights k).le) hM.herm hs.overlap hM.lowest hgap mu hX ek nu
  refine h1.trans (mul_le_mul_of_nonneg_left ?_ (densityFactor_nonneg ht hT hm hg))
  have h2 := hM.tangent X (occs c.t c.T c.mo ek nu) hX fun k i => C06_occupation_bounds c.t ht _ c.mo hm.le
  rw [hc] at hocc
  have hch := (searchOcc_charge hk hocc).1
  have h4 : |mu * (electrons c.wk (occs c.t c.T c.mo ek nu) - p.ne)| ≤ |mu| * p.tol := by
    rw [abs_mul, abs_sub_comm]
    exact mul_le_mul_of_nonneg_left hch.le (abs_nonneg _)
  have := (abs_le.1 h4).1
  rw [hM.count, exactFree_split hM.lowest mu]
  simp only [fieldFree, stateFree]
  linarith

/-- **C138.** The state in which a converged run leaves the host. -/
theorem C138_converged {prm : NlcgParams ℝ} {fuel rank : ℕ} {w w' : NState ℝ (SState η n b)} (hs : Setting host c)
    (h0 : SStart host c w.s) (ht : Monotonic c.t) (hT : 0 < c.T) (hm : 0 < c.mo)
    (hsp : c.t = .gaussianSpline → 1 ≤ c.mo) {g : ℝ} (hg : 0 < g) (hE : EnergyOf host c E)
    {p : OccParams ℝ} {key : Fin K → Key} (hk : Function.Injective key) (hc : c.occ = searchOcc false c.t p key c.wk)
    (hM : MeanField c.S E c.t c.T c.mo c.wk p.ne H V e mu) (hgap : ∀ k, GapAbove (H k) (c.S k) (V k) (e k) g)
    (hmax : 1 ≤ prm.maxiter)
    (hrun : solve host c prm fuel rank w = some (.ok info, w')) (hcv : info.converged = true) :
    ∃ vals, info.vals = some vals ∧
      ∑ k, c.wk k * distSq (c.S k) (densityOf (host.C w'.s.h k) (host.fn w'.s.h k))
          (densityOf (V k) (exactOcc c.t c.T c.mo e mu k))
        ≤ densityFactor c.t c.T c.mo g * (vals.F - fieldFree E c.t c.T c.mo c.wk V e mu + |mu| * p.tol
          + kB * c.T * c.mo * cutoffError c.t * ∑ k, c.wk k * b k) := by
  obtain ⟨F, X, f, r⟩ := C136_state hs hE (fun ek => by rw [hc]; exact searchOcc_clean _ _ _ _ _ _) h0 hmax hrun
  obtain ⟨vals, hv, rfl⟩ := r.returned
  obtain ⟨rfl, rfl⟩ := r.final hcv
  exact ⟨vals, hv, C138_returned hs ht hT hm hsp hg hk hc hM hgap r⟩

/-- **C138 (two runs).** Two runs with different starting states, preconditioners or parameters return nearly the same
density if their free energies are near the lowest one. -/
theorem C138_two_runs {η' : Type} {host' : Host η' n b} {c' : Cfg n b} {info' : Info ℝ} {X' : Orbitals n b} {f' : Bands b}
    {F' : ℝ} {h' : η'} (hs : Setting host c) (hs' : Setting host' c') (hcc : SameStates c c') (hS : ∀ k, (c.S k).PosDef)
    (ht : Monotonic c.t) (hT : 0 < c.T) (hm : 0 < c.mo) (hsp : c.t = .gaussianSpline → 1 ≤ c.mo) {g : ℝ} (hg : 0 < g)
    {p : OccParams ℝ} {key : Fin K → Key} (hk : Function.Injective key) (hc : c.occ = searchOcc false c.t p key c.wk)
    (hM : MeanField c.S E c.t c.T c.mo c.wk p.ne H V e mu) (hgap : ∀ k, GapAbove (H k) (c.S k) (V k) (e k) g)
    (r : ReturnedState host c E info h F X f) (r' : ReturnedState host' c' E info' h' F' X' f') :
    ∑ k, c.wk k * distSq (c.S k) (densityOf (X k) (f k)) (densityOf (X' k) (f' k))
      ≤ 2 * densityFactor c.t c.T c.mo g * (F + F' - 2 * fieldFree E c.t c.T c.mo c.wk V e mu + 2 * (|mu| * p.tol
        + kB * c.T * c.mo * cutoffError c.t * ∑ k, c.wk k * b k)) := by
  have h1 := C138_returned hs ht hT hm hsp hg hk hc hM hgap r
  obtain ⟨k1, k2, k3, k4, k5, k6⟩ := hcc
  have h2 := C138_returned (c := c') hs' (by rw [k1]; exact ht) (by rw [k2]; exact hT) (by rw [k3]; exact hm)
    (by rw [k1, k3]; exact hsp) hg hk (by rw [k6, k1, k4]; exact hc) (by rw [k1, k2, k3, k4, k5]; exact hM)
    (by rw [k5]; exact hgap) r'
  rw [k1, k2, k3, k4, k5] at h2
  have h3 : ∑ k, c.wk k * distSq (c.S k) (densityOf (X k) (f k)) (densityOf (X' k) (f' k))
      ≤ 2 * (∑ k, c.wk k * distSq (c.S k) (densityOf (X k) (f k)) (densityOf (V k) (exactOcc c.t c.T c.mo e mu k))
        + ∑ k, c.wk k * distSq (c.S k) (densityOf (X' k) (f' k)) (densityOf (V k) (exactOcc c.t c.T c.mo e mu k))) := by
    rw [← Finset.sum_add_distrib, Finset.mul_sum]
    refine Finset.sum_le_sum fun k _ => ?_
    have := mul_le_mul_of_nonneg_left (distSq_two (hS k) (densityOf_hermitian (X k) (f k)) (densityOf_hermitian (X' k) (f' k))
      (densityOf_hermitian (V k) (exactOcc c.t c.T c.mo e mu k))) (hs.weights k).le
    linarith
  linarith

/-- no self-consistent state is above another one -/
theorem fieldFree_le (ht : Monotonic t) (hT : 0 < T) (hm : 0 < mo) (hw : ∀ k, 0 ≤ wk k) (hS : ∀ k, (S k).PosSemidef)
    (hM : MeanField S E t T mo wk ne H V e mu) (hM' : MeanField S E t T mo wk ne H' V' e' mu') :
    fieldFree E t T mo wk V e mu ≤ fieldFree E t T mo wk V' e' mu' := by
  have h1 := variational_core ht hT hm.le hw hM.herm hS hM.lowest mu (fun k => (hM'.lowest k).ortho)
    (f := exactOcc t T mo e' mu') (s := fun k i => mo * idealEntropy t ((mu' - e' k i) / (kB * T))) (ε := 0)
    (fun k i => (exactOcc_bounds ht hm.le e' mu' k i).1) fun k i y => by
      have := mul_le_mul_of_nonneg_left (dual_ideal ht ((mu' - e' k i) / (kB * T)) y) hm.le
      simp only [exactOcc]
      linarith
  have h2 := hM.tangent V' (exactOcc t T mo e' mu') (fun k => (hM'.lowest k).ortho) (exactOcc_bounds ht hm.le e' mu')
  have h3 : electrons wk (exactOcc t T mo e' mu') = exactElectrons t T mo wk e' mu' := rfl
  rw [h3, hM.count, hM'.count, exactFree_split hM.lowest mu] at h1
  simp only [fieldFree, exactEntropy] at *
  linarith

/-- **C138 (uniqueness).** All self-consistent states with the same number of electrons have the same free energy, and
the same density if one of them has a gap above its bands. -/
theorem C138_unique (ht : Monotonic t) (hT : 0 < T) (hm : 0 < mo) (hw : ∀ k, 0 < wk k) (hS : ∀ k, (S k).PosDef)
    (hM : MeanField S E t T mo wk ne H V e mu) (hM' : MeanField S E t T mo wk ne H' V' e' mu') :
    fieldFree E t T mo wk V e mu = fieldFree E t T mo wk V' e' mu' ∧
    ∀ g, 0 < g → (∀ k, GapAbove (H k) (S k) (V k) (e k) g) →
      densities V' (exactOcc t T mo e' mu') = densities V (exactOcc t T mo e mu) := by
  have hw' : ∀ k, 0 ≤ wk k := fun k => (hw k).le
  have hS' : ∀ k, (S k).PosSemidef := fun k => (hS k).posSemidef
  have heq : fieldFree E t T mo wk V e mu = fieldFree E t T mo wk V' e' mu' :=
    le_antisymm (fieldFree_le ht hT hm hw' hS' hM hM') (fieldFree_le ht hT hm hw' hS' hM' hM)
  refine ⟨heq, fun g hg hgap => ?_⟩
  have h1 := density_core ht hT hm hg hw' hM.herm hS' hM.lowest hgap mu (fun k => (hM'.lowest k).ortho)
    (f := exactOcc t T mo e' mu') (s := fun k i => mo * idealEntropy t ((mu' - e' k i) / (kB * T))) (ε := 0)
    (fun k i => (exactOcc_bounds ht hm.le e' mu' k i).1) (fun k i => (exactOcc_bounds ht hm.le e' mu' k i).2)
    fun k i y => by
      have := mul_le_mul_of_nonneg_left (strong_ideal ht ((mu' - e' k i) / (kB * T)) y) hm.le
      simp only [exactOcc]
      have h4 : stiffness t / mo * (mo * idealFn t ((mu' - e' k i) / (kB * T)) - mo * idealFn t y) ^ 2
          = mo * (stiffness t * (idealFn t ((mu' - e' k i) / (kB * T)) - idealFn t y) ^ 2) := by
        field_simp
      rw [h4]
      linarith
  have h2 := hM.tangent V' (exactOcc t T mo e' mu') (fun k => (hM'.lowest k).ortho) (exactOcc_bounds ht hm.le e' mu')
  have h3 : electrons wk (exactOcc t T mo e' mu') = exactElectrons t T mo wk e' mu' := rfl
  have hle : bandEnergy H wk V' (exactOcc t T mo e' mu')
      - kB * T * (∑ k, wk k * ∑ i, mo * idealEntropy t ((mu' - e' k i) / (kB * T)))
      - exactFreeEnergy t T mo wk e mu - mu * (electrons wk (exactOcc t T mo e' mu') - exactElectrons t T mo wk e mu)
      + kB * T * mo * 0 * ∑ k, wk k * b k ≤ 0 := by
    rw [h3, hM.count, hM'.count, exactFree_split hM.lowest mu]
    simp only [fieldFree, exactEntropy] at *
    linarith
  have h5 := h1.trans (mul_nonpos_of_nonneg_of_nonpos (densityFactor_nonneg ht hT hm hg) hle)
  have hnn : ∀ k, 0 ≤ distSq (S k) (densityOf (V' k) (exactOcc t T mo e' mu' k)) (densityOf (V k) (exactOcc t T mo e mu k)) :=
    fun k => distSq_nonneg (hS k) (densityOf_hermitian _ _) (densityOf_hermitian _ _)
  have h6 := (Finset.sum_eq_zero_iff_of_nonneg fun k _ => mul_nonneg (hw' k) (hnn k)).1
    (le_antisymm h5 (Finset.sum_nonneg fun k _ => mul_nonneg (hw' k) (hnn k)))
  funext k
  have h7 := (mul_eq_zero.1 (h6 k (Finset.mem_univ k))).resolve_left (hw k).ne'
  exact eq_of_distSq (hS k) (densityOf_hermitian _ _) (densityOf_hermitian _ _) h7.le

end

/-! ## An interacting system -/

section
variable {K : ℕ} {n b : Fin K → ℕ}

theorem bandEnergy_add_smul (H A : (k : Fin K) → Mat (n k) (n k)) (wk : Fin K → ℝ) (a : ℝ) (X : Orbitals n b) (f : Bands b) :
    bandEnergy (fun k => H k + (a : ℂ) • A k) wk X f = bandEnergy H wk X f + a * bandEnergy A wk X f := by
  have hl : ∀ k i, levels (fun k => H k + (a : ℂ) • A k) X k i = levels H X k i + a * levels A X k i := fun k i => by
    simp only [levels, Matrix.add_mul, Matrix.mul_add, Matrix.smul_mul, Matrix.mul_smul, Matrix.add_apply,
      Matrix.smul_apply, smul_eq_mul, Complex.add_re, Complex.re_ofReal_mul]
  simp only [bandEnergy, hl, Finset.mul_sum, ← Finset.sum_add_distrib]
  refine Finset.sum_congr rfl fun k _ => Finset.sum_congr rfl fun i _ => ?_
  ring

/-- electrons that repel each other: half the square of an expectation value is added to the energy; in the Hamiltonian
this gives the operator times its expectation value -/
theorem tangent_quadratic (S H A : (k : Fin K) → Mat (n k) (n k)) (mo : ℝ) (wk : Fin K → ℝ) (V : Orbitals n b) (φ : Bands b) :
    AboveTangent S (fun X f => bandEnergy H wk X f + bandEnergy A wk X f ^ 2 / 2) mo wk
      (fun k => H k + ((bandEnergy A wk V φ : ℝ) : ℂ) • A k) V φ := fun X f _ _ => by
  rw [bandEnergy_add_smul, bandEnergy_add_smul]
  nlinarith [sq_nonneg (bandEnergy A wk X f - bandEnergy A wk V φ)]

theorem lowest_smul {N B : ℕ} {H S : Mat N N} {V : Mat N B} {e : Fin B → ℝ} (h : Lowest H S V e) {a : ℝ} (ha : 0 ≤ a) :
    Lowest ((a : ℂ) • H) S V fun i => a * e i := by
  have hx : ∀ v, expectation ((a : ℂ) • H) v = a * expectation H v := fun v => by
    simp only [expectation, smul_mulVec, dotProduct_smul, smul_eq_mul, Complex.re_ofReal_mul]
  refine ⟨h.ortho, ?_, fun v hv i => ?_⟩
  · rw [Matrix.smul_mul, h.eigen, ← Matrix.mul_smul]
    congr 1
    ext i j
    simp only [Matrix.smul_apply, diagonal_apply, smul_eq_mul]
    split_ifs with hij
    · push_cast; ring
    · simp
  · rw [hx, mul_assoc]
    exact mul_le_mul_of_nonneg_left (h.above v hv i) ha

theorem gap_smul {N B : ℕ} {H S : Mat N N} {V : Mat N B} {e : Fin B → ℝ} {g : ℝ} (h : GapAbove H S V e g) {a : ℝ}
    (ha : 0 ≤ a) : GapAbove ((a : ℂ) • H) S V (fun i => a * e i) (a * g) := fun v hv i => by
  have hx : expectation ((a : ℂ) • H) v = a * expectation H v := by
    simp only [expectation, smul_mulVec, dotProduct_smul, smul_eq_mul, Complex.re_ofReal_mul]
  rw [hx, ← mul_add, mul_assoc]
  exact mul_le_mul_of_nonneg_left (h v hv i) ha

end

/-- all hypotheses of `C138_unique` at once, with a gap: half an electron that repels itself -/
example : ∃ (V : Orbitals demoN demoB) (mu : ℝ),
    MeanField (fun _ => (1 : Mat 2 2)) (fun X f => bandEnergy flipH (fun _ => 1) X f + bandEnergy flipH (fun _ => 1) X f ^ 2 / 2)
      .fermiDirac 300 2 (fun _ => 1) (1 / 2) (fun k => ((1 / 2 : ℝ) : ℂ) • flipH k) V (fun _ _ => -1 / 2) mu ∧
    ∀ k, GapAbove (((1 / 2 : ℝ) : ℂ) • flipH k) (1 : Mat 2 2) (V k) (fun _ => -1 / 2) 1 := by
  obtain ⟨V, hV⟩ := flip_gap
  obtain ⟨mu, hmu⟩ := exists_mu (t := .fermiDirac) trivial (T := 300) (mo := 2) (by norm_num) (fun _ : Fin 1 => 1)
    (fun (_ : Fin 1) (_ : Fin 1) => (-1 / 2 : ℝ)) (ne := 1 / 2) (by norm_num) (by norm_num)
  have hlow : ∀ k, Lowest (((1 / 2 : ℝ) : ℂ) • flipH k) (1 : Mat 2 2) (V k) fun _ => -1 / 2 := fun k => by
    have := lowest_smul (hV k).1 (a := 1 / 2) (by norm_num)
    norm_num at this ⊢
    exact this
  have hgap : ∀ k, GapAbove (((1 / 2 : ℝ) : ℂ) • flipH k) (1 : Mat 2 2) (V k) (fun _ => -1 / 2) 1 := fun k => by
    have := gap_smul (hV k).2 (a := 1 / 2) (by norm_num)
    norm_num at this ⊢
    exact this
  have hband : bandEnergy flipH (fun _ => 1) V (exactOcc .fermiDirac 300 2 (fun _ _ => -1 / 2) mu) = -1 / 2 := by
    have hl : ∀ k i, levels flipH V k i = -1 := fun k i => by
      have h1 := (hV k).1.ortho
      rw [SOrtho] at h1
      rw [levels, (hV k).1.eigen, ← Matrix.mul_assoc, h1, Matrix.one_mul, diagonal_apply_eq, Complex.ofReal_re]
    rw [exactElectrons] at hmu
    simp only [bandEnergy, hl, exactOcc]
    simp only [mul_neg, mul_one, Finset.sum_neg_distrib, one_mul] at hmu ⊢
    linarith
  refine ⟨V, mu, ⟨fun k => ?_, hlow, hmu, ?_⟩, hgap⟩
  · rw [IsHermitian, conjTranspose_smul, (flip_herm k).eq]
    congr 1
    exact Complex.conj_ofReal _
  · have := tangent_quadratic (fun _ => (1 : Mat 2 2)) flipH flipH 2 (fun _ => 1) V
      (exactOcc .fermiDirac 300 2 (fun _ _ => -1 / 2) mu)
    rw [hband] at this
    have hH : (fun k => flipH k + ((-1 / 2 : ℝ) : ℂ) • flipH k) = fun k => ((1 / 2 : ℝ) : ℂ) • flipH k := by
      funext k
      rw [show ((1 / 2 : ℝ) : ℂ) = 1 + ((-1 / 2 : ℝ) : ℂ) by push_cast; norm_num, add_smul, one_smul]
    rw [hH] at this
    exact this

/-- all hypotheses of `C138_returned` at once: the run of C99, whose energy is linear in the density -/
example : ∃ (prm : NlcgParams ℝ) (info : Info ℝ) (w' : _) (F mu : ℝ) (X V : Orbitals demoN demoB) (f : Bands demoB),
    solve flipHost (demoCfg demoSearch) prm 0 0 (demoStart 5) = some (.ok info, w') ∧
    ReturnedState flipHost (demoCfg demoSearch) (bandEnergy flipH (demoCfg demoSearch).wk) info w'.s.h F X f ∧
    MeanField (demoCfg demoSearch).S (bandEnergy flipH (demoCfg demoSearch).wk) .gauss 300 2 (demoCfg demoSearch).wk 1
      flipH V (fun _ _ => -1) mu ∧
    ∑ k, (demoCfg demoSearch).wk k * distSq 1 (densityOf (X k) (f k)) (densityOf (V k) (exactOcc .gauss 300 2 (fun _ _ => -1) mu k))
      ≤ densityFactor .gauss 300 2 2 * (F - fieldFree (bandEnergy flipH (demoCfg demoSearch).wk) .gauss 300 2
        (demoCfg demoSearch).wk V (fun _ _ => -1) mu + |mu| * (1 / 10 ^ 11)
        + kB * 300 * 2 * cutoffError .gauss * ∑ k, (demoCfg demoSearch).wk k * demoB k) := by
  obtain ⟨V, hV⟩ := flip_gap
  obtain ⟨mu, hmu⟩ := exists_mu (t := .gauss) trivial (T := 300) (mo := 2) (by norm_num) (demoCfg demoSearch).wk
    (fun (_ : Fin 1) (_ : Fin 1) => (-1 : ℝ)) (ne := 1) (by norm_num) (by norm_num [demoCfg])
  obtain ⟨prm, info, w', hm, q1⟩ := flip_run
  obtain ⟨F, X, f, r⟩ := C136_state flip_setting flip_noninteracting.energy (fun _ => searchOcc_clean _ _ _ _ _ _)
    flip_start hm q1
  have hM : MeanField (demoCfg demoSearch).S (bandEnergy flipH (demoCfg demoSearch).wk) .gauss 300 2
      (demoCfg demoSearch).wk 1 flipH V (fun _ _ => -1) mu :=
    ⟨flip_herm, fun k => (hV k).1, hmu, fun X f _ _ => by linarith⟩
  refine ⟨prm, info, w', F, mu, X, V, f, q1, r, hM, ?_⟩
  exact C138_returned flip_setting trivial (by norm_num [demoCfg]) (by norm_num [demoCfg]) (fun h => nomatch h)
    (by norm_num) (p := { T := 300, occ := 2, ne := 1, tol := 1 / 10 ^ 11 }) (key := fun _ => toLex (0, 0))
    (fun a b _ => Subsingleton.elim a b) rfl hM (fun k => (hV k).2) r

/-! ## Convexity is needed -/

section
variable {K : ℕ} {n b : Fin K → ℕ}

theorem meanOf_line (wk : Fin K → ℝ) (A D D' : (k : Fin K) → Mat (n k) (n k)) (x : ℝ) :
    meanOf wk A (D + x • D') = meanOf wk A D + x * meanOf wk A D' := by
  simp only [meanOf, Finset.mul_sum]
  rw [← Finset.sum_add_distrib]
  refine Finset.sum_congr rfl fun k _ => ?_
  rw [Pi.add_apply, Pi.smul_apply, Matrix.mul_add, trace_add, Complex.add_re, Matrix.mul_smul, trace_smul, Complex.smul_re,
    smul_eq_mul]
  ring

/-- derivative of the energy of electrons that attract each other -/
theorem attract_deriv (wk : Fin K → ℝ) (A D0 Δ : (k : Fin K) → Mat (n k) (n k)) :
    HasDerivAt (fun x : ℝ => -(meanOf wk A (D0 + x • Δ) ^ 2 / 2))
      (meanOf wk (fun k => ((-meanOf wk A D0 : ℝ) : ℂ) • A k) Δ) 0 := by
  have h1 : meanOf wk (fun k => ((-meanOf wk A D0 : ℝ) : ℂ) • A k) Δ = -meanOf wk A D0 * meanOf wk A Δ := by
    generalize meanOf wk A D0 = a
    simp only [meanOf, Finset.mul_sum]
    refine Finset.sum_congr rfl fun k _ => ?_
    rw [Matrix.smul_mul, trace_smul, smul_eq_mul, Complex.re_ofReal_mul]
    ring
  rw [h1]
  simp only [meanOf_line]
  have h2 : HasDerivAt (fun x : ℝ => meanOf wk A D0 + x * meanOf wk A Δ) (1 * meanOf wk A Δ) 0 :=
    ((hasDerivAt_id (0 : ℝ)).mul_const _).const_add _
  have h3 := ((h2.pow 2).div_const 2).neg
  refine h3.congr_deriv ?_
  norm_num
  ring

/-- the hypotheses of `C138_convex`: electrons that repel each other -/
example (S A : (k : Fin K) → Mat (n k) (n k)) (mo : ℝ) (wk : Fin K → ℝ) (V : Orbitals n b) (φ : Bands b) :
    AboveTangent S (fun X f => meanOf wk A (densities X f) ^ 2 / 2) mo wk
      (fun k => ((meanOf wk A (densities V φ) : ℝ) : ℂ) • A k) V φ := by
  refine C138_convex (G := fun D => meanOf wk A D ^ 2 / 2) ⟨fun D hD D' hD' p q _ _ _ k => ?_,
    fun D _ D' _ p q hp hq hpq => ?_⟩ fun D _ => ?_
  · rw [Pi.add_apply, Pi.smul_apply, Pi.smul_apply, IsHermitian, conjTranspose_add, conjTranspose_smul, conjTranspose_smul,
      (hD k).eq, (hD' k).eq, star_trivial, star_trivial]
  · obtain rfl : p = 1 - q := by linarith
    have h1 : (1 - q) • D + q • D' = D + q • (D' - D) := by module
    have h2 : meanOf wk A D' = meanOf wk A (D + (1 : ℝ) • (D' - D)) := by congr 1; module
    simp only [h1, h2, meanOf_line, smul_eq_mul]
    generalize meanOf wk A D = x
    generalize meanOf wk A (D' - D) = y
    nlinarith [mul_nonneg (mul_nonneg hp hq) (sq_nonneg y)]
  · have h := (attract_deriv wk A (densities V φ) (D - densities V φ)).neg
    refine hd_to h (fun x => by simp only [Pi.neg_apply, neg_neg]) ?_
    generalize meanOf wk A (densities V φ) = a
    simp only [meanOf, ← Finset.sum_neg_distrib]
    refine Finset.sum_congr rfl fun k _ => ?_
    simp only [Matrix.smul_mul, trace_smul, smul_eq_mul, Complex.re_ofReal_mul]
    ring

end

theorem expect_sites (s : ℝ) (v : Fin 2 → ℂ) :
    expectation (((s : ℝ) : ℂ) • (!![1, 0; 0, -1] : Mat 2 2)) v = s * (Complex.normSq (v 0) - Complex.normSq (v 1)) := by
  simp only [expectation, smul_mulVec, dotProduct_smul, smul_eq_mul, Complex.re_ofReal_mul]
  congr 1
  simp [mulVec, dotProduct, Fin.sum_univ_two, Complex.normSq_apply]
  ring

theorem expect_one (v : Fin 2 → ℂ) : expectation (1 : Mat 2 2) v = Complex.normSq (v 0) + Complex.normSq (v 1) := by
  simp [expectation, dotProduct, Fin.sum_univ_two, Complex.normSq_apply]

/-- **C138 (why convexity).** Electrons that attract each other, two sites, one band: both sites give a self-consistent
state, with the same band energies and a gap, and the densities differ. -/
theorem C138_convexity_needed {t : SmearType} (ht : Monotonic t) {T mo : ℝ} (hT : 0 < T) (hm : 0 < mo) :
    ∃ (G : ((k : Fin 1) → Mat (demoN k) (demoN k)) → ℝ) (H H' : (k : Fin 1) → Mat (demoN k) (demoN k))
      (V V' : Orbitals demoN demoB) (e : Bands demoB) (mu : ℝ),
      (∀ D, HasDerivAt (fun x : ℝ => G (densities V (exactOcc t T mo e mu) + x • (D - densities V (exactOcc t T mo e mu))))
        (meanOf (fun _ => 1) H (D - densities V (exactOcc t T mo e mu))) 0) ∧
      (∀ D, HasDerivAt (fun x : ℝ => G (densities V' (exactOcc t T mo e mu) + x • (D - densities V' (exactOcc t T mo e mu))))
        (meanOf (fun _ => 1) H' (D - densities V' (exactOcc t T mo e mu))) 0) ∧
      (∀ k, Lowest (H k) 1 (V k) (e k) ∧ GapAbove (H k) 1 (V k) (e k) mo) ∧
      (∀ k, Lowest (H' k) 1 (V' k) (e k) ∧ GapAbove (H' k) 1 (V' k) (e k) mo) ∧
      densities V (exactOcc t T mo e mu) ≠ densities V' (exactOcc t T mo e mu) := by
  obtain ⟨mu, hmu⟩ := exists_mu ht hT (mo := mo) (fun _ : Fin 1 => 1)
    (fun (_ : Fin 1) (_ : Fin 1) => (-(mo / 2) : ℝ)) (ne := mo / 2) (by linarith) (by
      simp only [Finset.univ_unique, Finset.sum_singleton]
      push_cast
      linarith)
  have hocc : ∀ k i, exactOcc t T mo (b := demoB) (fun _ _ => -(mo / 2)) mu k i = mo / 2 := fun k i => by
    have h1 : exactElectrons t T mo (fun _ : Fin 1 => 1) (fun (_ : Fin 1) (_ : Fin 1) => (-(mo / 2) : ℝ)) mu
        = mo * idealFn t ((mu - -(mo / 2)) / (kB * T)) := by
      simp [exactElectrons]
    rw [h1] at hmu
    exact hmu
  set A : (k : Fin 1) → Mat (demoN k) (demoN k) := fun _ => (!![1, 0; 0, -1] : Mat 2 2) with hA
  set V : Orbitals demoN demoB := fun _ => (!![1; 0] : Mat 2 1) with hVd
  set V' : Orbitals demoN demoB := fun _ => (!![0; 1] : Mat 2 1) with hVd'
  set φ : Bands demoB := exactOcc t T mo (fun _ _ => -(mo / 2)) mu with hφ
  have hd : ∀ k, densities V φ k = (!![(mo / 2 : ℂ), 0; 0, 0] : Mat 2 2) := fun k => by
    show (!![1; 0] : Mat 2 1) * diagonal (fun i : Fin 1 => ((φ k i : ℝ) : ℂ)) * (!![1; 0] : Mat 2 1)ᴴ = _
    ext i j
    fin_cases i <;> fin_cases j <;> simp [mul_apply, hocc, div_eq_mul_inv]
  have hd' : ∀ k, densities V' φ k = (!![0, 0; 0, (mo / 2 : ℂ)] : Mat 2 2) := fun k => by
    show (!![0; 1] : Mat 2 1) * diagonal (fun i : Fin 1 => ((φ k i : ℝ) : ℂ)) * (!![0; 1] : Mat 2 1)ᴴ = _
    ext i j
    fin_cases i <;> fin_cases j <;> simp [mul_apply, hocc, div_eq_mul_inv]
  have hm1 : meanOf (fun _ => 1) A (densities V φ) = mo / 2 := by
    have : ∀ k, trace (A k * densities V φ k) = (mo / 2 : ℂ) := fun k => by
      rw [hd]
      show trace ((!![1, 0; 0, -1] : Mat 2 2) * (!![(mo / 2 : ℂ), 0; 0, 0] : Mat 2 2)) = _
      simp [trace, Fin.sum_univ_two]
    simp [meanOf, this]
  have hm2 : meanOf (fun _ => 1) A (densities V' φ) = -(mo / 2) := by
    have : ∀ k, trace (A k * densities V' φ k) = -(mo / 2 : ℂ) := fun k => by
      rw [hd']
      show trace ((!![1, 0; 0, -1] : Mat 2 2) * (!![0, 0; 0, (mo / 2 : ℂ)] : Mat 2 2)) = _
      simp [trace, Fin.sum_univ_two]
    simp [meanOf, this]
  refine ⟨fun D => -(meanOf (fun _ => 1) A D ^ 2 / 2), _, _, V, V', fun _ _ => -(mo / 2), mu,
    fun D => attract_deriv _ _ _ _, fun D => attract_deriv _ _ _ _, fun k => ?_, fun k => ?_, fun he => ?_⟩
  · rw [hm1]
    refine ⟨⟨?_, ?_, fun v hv i => ?_⟩, fun v hv i => ?_⟩
    · show (!![1; 0] : Mat 2 1)ᴴ * (1 * !![1; 0]) = 1
      ext i j; fin_cases i; fin_cases j; simp [mul_apply]
    · show (((-(mo / 2) : ℝ) : ℂ) • (!![1, 0; 0, -1] : Mat 2 2)) * (!![1; 0] : Mat 2 1)
        = (1 : Mat 2 2) * (!![1; 0] : Mat 2 1) * diagonal fun _ => ((-(mo / 2) : ℝ) : ℂ)
      ext i j; fin_cases i <;> fin_cases j <;> simp [mul_apply]
    all_goals
      have h0 : v 0 = 0 := by
        have h := congrFun hv 0
        have h' : ((!![1; 0] : Mat 2 1)ᴴ *ᵥ ((1 : Mat 2 2) *ᵥ v)) 0 = 0 := h
        simpa [mulVec, dotProduct, Fin.sum_univ_two] using h'
      have e1 := expect_sites (-(mo / 2)) v
      have e2 := expect_one v
      rw [h0, map_zero] at e1 e2
      have hn := Complex.normSq_nonneg (v 1)
    · show -(mo / 2) * expectation (1 : Mat 2 2) v ≤ expectation (((-(mo / 2) : ℝ) : ℂ) • (!![1, 0; 0, -1] : Mat 2 2)) v
      rw [e1, e2]
      nlinarith
    · show (-(mo / 2) + mo) * expectation (1 : Mat 2 2) v ≤ expectation (((-(mo / 2) : ℝ) : ℂ) • (!![1, 0; 0, -1] : Mat 2 2)) v
      rw [e1, e2]
      nlinarith
  · rw [hm2, neg_neg]
    refine ⟨⟨?_, ?_, fun v hv i => ?_⟩, fun v hv i => ?_⟩
    · show (!![0; 1] : Mat 2 1)ᴴ * (1 * !![0; 1]) = 1
      ext i j; fin_cases i; fin_cases j; simp [mul_apply]
    · show (((mo / 2 : ℝ) : ℂ) • (!![1, 0; 0, -1] : Mat 2 2)) * (!![0; 1] : Mat 2 1)
        = (1 : Mat 2 2) * (!![0; 1] : Mat 2 1) * diagonal fun _ => ((-(mo / 2) : ℝ) : ℂ)
      ext i j; fin_cases i <;> fin_cases j <;> simp [mul_apply]
    all_goals
      have h0 : v 1 = 0 := by
        have h := congrFun hv 0
        have h' : ((!![0; 1] : Mat 2 1)ᴴ *ᵥ ((1 : Mat 2 2) *ᵥ v)) 0 = 0 := h
        simpa [mulVec, dotProduct, Fin.sum_univ_two] using h'
      have e1 := expect_sites (mo / 2) v
      have e2 := expect_one v
      rw [h0, map_zero] at e1 e2
      have hn := Complex.normSq_nonneg (v 0)
    · show -(mo / 2) * expectation (1 : Mat 2 2) v ≤ expectation (((mo / 2 : ℝ) : ℂ) • (!![1, 0; 0, -1] : Mat 2 2)) v
      rw [e1, e2]
      nlinarith
    · show (-(mo / 2) + mo) * expectation (1 : Mat 2 2) v ≤ expectation (((mo / 2 : ℝ) : ℂ) • (!![1, 0; 0, -1] : Mat 2 2)) v
      rw [e1, e2]
      nlinarith
  · have := congrFun he 0
    rw [hd, hd'] at this
    have h0 := congrFun (congrFun this 0) 0
    simp at h0
    linarith

end Nlcg
