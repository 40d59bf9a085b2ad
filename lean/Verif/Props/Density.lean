import Verif.Proofs.Density
import Verif.Props.Response

/-!
# C137: a small error of the free energy means a small error of the density
-/

namespace Nlcg
open Matrix Spec Real ComplexOrder

/-- **C137.** The distance means what it should: without overlap operator it is the sum over all matrix elements. -/
theorem C137_distance {N : ℕ} {D D' : Mat N N} (hD : D.IsHermitian) (hD' : D'.IsHermitian) :
    distSq 1 D D' = ∑ i, ∑ j, Complex.normSq (D i j - D' i j) := by
  have h : (D - D')ᴴ = D - D' := (hD.sub hD').eq
  rw [distSq, Matrix.mul_one, trace, Complex.re_sum]
  refine Finset.sum_congr rfl fun i _ => ?_
  rw [diag_apply, mul_apply, Complex.re_sum]
  refine Finset.sum_congr rfl fun j _ => ?_
  have : (D - D') j i = star ((D - D') i j) := by
    conv_lhs => rw [← h]
    rfl
  rw [this, Matrix.sub_apply]
  generalize D i j - D' i j = z
  simp [Complex.normSq_apply]

section
variable {K : ℕ} {n b : Fin K → ℕ} {η : Type} {host : Host η n b} {c : Cfg n b} {info : Info ℝ}
  {X : Orbitals n b} {f : Bands b} {F : ℝ} {h : η}

/-- **C137 (any state).** Electrons that do not interact, monotonic smearing: orthonormal orbitals with occupations that
belong to any pseudo-energies. The square of the distance of their density from the exact one is bounded by the excess
of their free energy over the exact one. -/
theorem C137_any_state {t : SmearType} (ht : Monotonic t) {T mo g : ℝ} (hT : 0 < T) (hm : 0 < mo)
    (hsp : t = .gaussianSpline → 1 ≤ mo) (hg : 0 < g) {wk : Fin K → ℝ} (hw : ∀ k, 0 ≤ wk k)
    {H S : (k : Fin K) → Mat (n k) (n k)} (hH : ∀ k, (H k).IsHermitian) (hS : ∀ k, (S k).PosSemidef)
    {V : Orbitals n b} {e : Bands b} (hV : ∀ k, Lowest (H k) (S k) (V k) (e k))
    (hgap : ∀ k, GapAbove (H k) (S k) (V k) (e k) g) (mu : ℝ)
    {X : Orbitals n b} (hX : ∀ k, SOrtho (S k) (X k)) (ek : Bands b) (nu : ℝ) :
    ∑ k, wk k * distSq (S k) (densityOf (X k) (occs t T mo ek nu k)) (densityOf (V k) (exactOcc t T mo e mu k))
      ≤ densityFactor t T mo g * (stateFree (bandEnergy H wk) t T mo wk X ek nu - exactFreeEnergy t T mo wk e mu
        - mu * (electrons wk (occs t T mo ek nu) - exactElectrons t T mo wk e mu)
        + kB * T * mo * cutoffError t * ∑ k, wk k * b k) := by
  have h := density_core ht hT hm hg hw hH hS hV hgap mu hX (f := occs t T mo ek nu)
    (s := fun k i => (smearFns t).entropy ((nu - ek k i) / (kB * T)) mo) (ε := cutoffError t)
    (fun k i => (C06_occupation_bounds t ht _ mo hm.le).1) (fun k i => (C06_occupation_bounds t ht _ mo hm.le).2)
    fun k i y => level_strong ht hm hsp _ _
  refine h.trans (le_of_eq ?_)
  simp only [stateFree, entropySum]

/-- **C137.** The density that belongs to the free energy a run returns is close to the exact density if the free
energy is close to the exact one. -/
theorem C137_returned (hs : Setting host c) (ht : Monotonic c.t) (hT : 0 < c.T) (hm : 0 < c.mo)
    (hsp : c.t = .gaussianSpline → 1 ≤ c.mo) {g : ℝ} (hg : 0 < g)
    {H : (k : Fin K) → Mat (n k) (n k)} (hH : ∀ k, (H k).IsHermitian)
    {p : OccParams ℝ} {key : Fin K → Key} (hk : Function.Injective key) (hc : c.occ = searchOcc false c.t p key c.wk)
    {V : Orbitals n b} {e : Bands b} (hV : ∀ k, Lowest (H k) (c.S k) (V k) (e k))
    (hgap : ∀ k, GapAbove (H k) (c.S k) (V k) (e k) g) {mu : ℝ}
    (hN : exactElectrons c.t c.T c.mo c.wk e mu = p.ne)
    (r : ReturnedState host c (bandEnergy H c.wk) info h F X f) :
    ∑ k, c.wk k * distSq (c.S k) (densityOf (X k) (f k)) (densityOf (V k) (exactOcc c.t c.T c.mo e mu k))
      ≤ densityFactor c.t c.T c.mo g * (F - exactFreeEnergy c.t c.T c.mo c.wk e mu + |mu| * p.tol
        + kB * c.T * c.mo * cutoffError c.t * ∑ k, c.wk k * b k) := by
  obtain ⟨ek, nu, ⟨hX, hocc⟩, rfl, rfl⟩ := r.state
  have h1 := C137_any_state ht hT hm hsp hg (fun k => (hs.weights k).le) hH hs.overlap hV hgap mu hX ek nu
  refine h1.trans (mul_le_mul_of_nonneg_left ?_ (densityFactor_nonneg ht hT hm hg))
  rw [hc] at hocc
  have hch := (searchOcc_charge hk hocc).1
  have h4 : |mu * (electrons c.wk (occs c.t c.T c.mo ek nu) - p.ne)| ≤ |mu| * p.tol := by
    rw [abs_mul, abs_sub_comm]
    exact mul_le_mul_of_nonneg_left hch.le (abs_nonneg _)
  have := (abs_le.1 h4).1
  rw [hN]
  linarith

/-- **C137.** The same for the state in which a converged run leaves the host. -/
theorem C137_converged {prm : NlcgParams ℝ} {fuel rank : ℕ} {w w' : NState ℝ (SState η n b)} (hs : Setting host c)
    (h0 : SStart host c w.s) (ht : Monotonic c.t) (hT : 0 < c.T) (hm : 0 < c.mo)
    (hsp : c.t = .gaussianSpline → 1 ≤ c.mo) {g : ℝ} (hg : 0 < g)
    {H : (k : Fin K) → Mat (n k) (n k)} (hn : NonInteracting host c H) (hH : ∀ k, (H k).IsHermitian)
    {p : OccParams ℝ} {key : Fin K → Key} (hk : Function.Injective key) (hc : c.occ = searchOcc false c.t p key c.wk)
    {V : Orbitals n b} {e : Bands b} (hV : ∀ k, Lowest (H k) (c.S k) (V k) (e k))
    (hgap : ∀ k, GapAbove (H k) (c.S k) (V k) (e k) g) {mu : ℝ}
    (hN : exactElectrons c.t c.T c.mo c.wk e mu = p.ne) (hmax : 1 ≤ prm.maxiter)
    (hrun : solve host c prm fuel rank w = some (.ok info, w')) (hcv : info.converged = true) :
    ∃ vals, info.vals = some vals ∧
      ∑ k, c.wk k * distSq (c.S k) (densityOf (host.C w'.s.h k) (host.fn w'.s.h k))
          (densityOf (V k) (exactOcc c.t c.T c.mo e mu k))
        ≤ densityFactor c.t c.T c.mo g * (vals.F - exactFreeEnergy c.t c.T c.mo c.wk e mu + |mu| * p.tol
          + kB * c.T * c.mo * cutoffError c.t * ∑ k, c.wk k * b k) := by
  obtain ⟨F, X, f, r⟩ := C136_state hs hn.energy (fun ek => by rw [hc]; exact searchOcc_clean _ _ _ _ _ _) h0 hmax hrun
  obtain ⟨vals, hv, rfl⟩ := r.returned
  obtain ⟨rfl, rfl⟩ := r.final hcv
  exact ⟨vals, hv, C137_returned hs ht hT hm hsp hg hH hk hc hV hgap hN r⟩

/-- **C137 (expectation values).** Without overlap operator, the distance of two densities bounds the difference of the
expectation values of every observable. -/
theorem C137_expectation {wk : Fin K → ℝ} (hw : ∀ k, 0 ≤ wk k) {D D' A : (k : Fin K) → Mat (n k) (n k)}
    (hD : ∀ k, (D k).IsHermitian) (hD' : ∀ k, (D' k).IsHermitian) :
    ((∑ k, wk k * (trace (A k * D k)).re) - ∑ k, wk k * (trace (A k * D' k)).re) ^ 2
      ≤ (∑ k, wk k * ∑ i, ∑ j, Complex.normSq (A k i j)) * ∑ k, wk k * distSq 1 (D k) (D' k) := by
  have hdist : ∀ k, distSq 1 (D k) (D' k) = ∑ i, ∑ j, Complex.normSq (D k i j - D' k i j) := fun k =>
    C137_distance (hD k) (hD' k)
  simp only [hdist]
  have h1 : ∀ k, (trace (A k * D k)).re - (trace (A k * D' k)).re
      = ∑ x : Fin (n k) × Fin (n k), (A k x.1 x.2 * (D k x.2 x.1 - D' k x.2 x.1)).re := fun k => by
    rw [← Complex.sub_re, ← trace_sub, ← Matrix.mul_sub, trace, Complex.re_sum, Fintype.sum_prod_type]
    refine Finset.sum_congr rfl fun i _ => ?_
    rw [diag_apply, mul_apply, Complex.re_sum]
    rfl
  have h2 : ∀ k, ∑ i, ∑ j, Complex.normSq (D k i j - D' k i j)
      = ∑ x : Fin (n k) × Fin (n k), Complex.normSq (D k x.2 x.1 - D' k x.2 x.1) := fun k => by
    rw [Finset.sum_comm, Fintype.sum_prod_type]
  have h3 : ∀ k, ∑ i, ∑ j, Complex.normSq (A k i j) = ∑ x : Fin (n k) × Fin (n k), Complex.normSq (A k x.1 x.2) :=
    fun k => by rw [Fintype.sum_prod_type]
  have h4 : ∀ k, ((trace (A k * D k)).re - (trace (A k * D' k)).re) ^ 2
      ≤ (∑ i, ∑ j, Complex.normSq (A k i j)) * ∑ i, ∑ j, Complex.normSq (D k i j - D' k i j) := fun k => by
    rw [h1, h2, h3]
    refine Finset.sum_sq_le_sum_mul_sum_of_sq_le_mul _ (fun x _ => Complex.normSq_nonneg _)
      (fun x _ => Complex.normSq_nonneg _) fun x _ => ?_
    rw [← Complex.normSq_mul, Complex.normSq_apply]
    nlinarith [mul_self_nonneg (A k x.1 x.2 * (D k x.2 x.1 - D' k x.2 x.1)).im]
  have nn : ∀ k (M : Mat (n k) (n k)), 0 ≤ ∑ i, ∑ j, Complex.normSq (M i j) := fun k M =>
    Finset.sum_nonneg fun i _ => Finset.sum_nonneg fun j _ => Complex.normSq_nonneg _
  rw [← Finset.sum_sub_distrib]
  refine Finset.sum_sq_le_sum_mul_sum_of_sq_le_mul _ (fun k _ => mul_nonneg (hw k) (nn k (A k)))
    (fun k _ => mul_nonneg (hw k) (nn k (D k - D' k))) fun k _ => ?_
  have h5 := mul_le_mul_of_nonneg_left (h4 k) (mul_self_nonneg (wk k))
  refine le_trans (le_of_eq ?_) (h5.trans (le_of_eq ?_)) <;> ring

theorem densityOf_hermitian {N B : ℕ} (X : Mat N B) (f : Fin B → ℝ) : (densityOf X f).IsHermitian := by
  rw [densityOf, IsHermitian, conjTranspose_mul, conjTranspose_mul, conjTranspose_conjTranspose, diagonal_conjTranspose,
    ← Matrix.mul_assoc]
  congr 3
  funext i
  exact Complex.conj_ofReal _

/-- **C137 (observables of a run).** Without overlap operator: the expectation value of any observable in the state of a
run differs from the exact one by at most a multiple of the root of the excess of the free energy. -/
theorem C137_observable (hs : Setting host c) (ht : Monotonic c.t) (hT : 0 < c.T) (hm : 0 < c.mo)
    (hsp : c.t = .gaussianSpline → 1 ≤ c.mo) {g : ℝ} (hg : 0 < g) (hS : ∀ k, c.S k = 1)
    {H : (k : Fin K) → Mat (n k) (n k)} (hH : ∀ k, (H k).IsHermitian)
    {p : OccParams ℝ} {key : Fin K → Key} (hk : Function.Injective key) (hc : c.occ = searchOcc false c.t p key c.wk)
    {V : Orbitals n b} {e : Bands b} (hV : ∀ k, Lowest (H k) (c.S k) (V k) (e k))
    (hgap : ∀ k, GapAbove (H k) (c.S k) (V k) (e k) g) {mu : ℝ}
    (hN : exactElectrons c.t c.T c.mo c.wk e mu = p.ne)
    (r : ReturnedState host c (bandEnergy H c.wk) info h F X f) (A : (k : Fin K) → Mat (n k) (n k)) :
    ((∑ k, c.wk k * (trace (A k * densityOf (X k) (f k))).re)
        - ∑ k, c.wk k * (trace (A k * densityOf (V k) (exactOcc c.t c.T c.mo e mu k))).re) ^ 2
      ≤ (∑ k, c.wk k * ∑ i, ∑ j, Complex.normSq (A k i j)) * (densityFactor c.t c.T c.mo g
        * (F - exactFreeEnergy c.t c.T c.mo c.wk e mu + |mu| * p.tol
          + kB * c.T * c.mo * cutoffError c.t * ∑ k, c.wk k * b k)) := by
  have h1 := C137_returned hs ht hT hm hsp hg hH hk hc hV hgap hN r
  simp only [hS] at h1
  have hw : ∀ k, 0 ≤ c.wk k := fun k => (hs.weights k).le
  refine (C137_expectation hw (fun k => densityOf_hermitian _ _) fun k => densityOf_hermitian _ _).trans
    (mul_le_mul_of_nonneg_left h1 ?_)
  exact Finset.sum_nonneg fun k _ => mul_nonneg (hw k)
    (Finset.sum_nonneg fun i _ => Finset.sum_nonneg fun j _ => Complex.normSq_nonneg _)

end

/-! ## The gap is needed -/

/-- **C137 (why the gap).** Two states of the same energy, one band: both orbitals have the exact free energy, and
the densities differ. -/
theorem C137_gap_needed {T mo : ℝ} (hm : 0 < mo) (mu : ℝ) :
    ∃ X V : Orbitals demoN demoB, (∀ k, SOrtho (1 : Mat 2 2) (X k)) ∧
      (∀ k, Lowest (0 : Mat 2 2) 1 (V k) fun _ => 0) ∧
      stateFree (bandEnergy (fun _ => 0) fun _ => 1) .gauss T mo (fun _ => 1) X (fun _ _ => 0) mu
        = exactFreeEnergy (b := demoB) .gauss T mo (fun _ => 1) (fun _ _ => 0) mu ∧
      0 < distSq 1 (densityOf (X 0) (occs .gauss T mo (fun _ _ => 0) mu 0))
        (densityOf (V 0) (exactOcc .gauss T mo (fun _ _ => 0) mu 0)) := by
  have h1 : SOrtho (1 : Mat 2 2) (!![1; 0] : Mat 2 1) := by
    show (!![1; 0] : Mat 2 1)ᴴ * (1 * !![1; 0]) = 1
    ext i j; fin_cases i; fin_cases j; simp [mul_apply]
  have h2 : SOrtho (1 : Mat 2 2) (!![0; 1] : Mat 2 1) := by
    show (!![0; 1] : Mat 2 1)ᴴ * (1 * !![0; 1]) = 1
    ext i j; fin_cases i; fin_cases j; simp [mul_apply]
  have hV : ∀ k : Fin 1, Lowest (0 : Mat 2 2) 1 (!![0; 1] : Mat 2 1) fun _ => 0 := fun _ =>
    ⟨h2, by ext i j; simp, fun v _ _ => by simp [expectation]⟩
  have hX : ∀ k : Fin 1, Lowest (0 : Mat 2 2) 1 (!![1; 0] : Mat 2 1) fun _ => 0 := fun _ =>
    ⟨h1, by ext i j; simp, fun v _ _ => by simp [expectation]⟩
  refine ⟨fun _ => !![1; 0], fun _ => !![0; 1], fun _ => h1, hV, ?_, ?_⟩
  · rw [← C99_attained (T := T) (mo := mo) (wk := fun _ : Fin 1 => 1) (n := demoN) (b := demoB)
      (H := fun _ => (0 : Mat 2 2)) (S := fun _ => 1) (V := fun _ => !![1; 0]) (e := fun _ _ => 0) hX mu]
    simp only [stateFree, entropySum]
    ring
  · rw [distSq_eq isHermitian_one h1 h2]
    have hz : (!![0; 1] : Mat 2 1)ᴴ * ((1 : Mat 2 2) * (!![1; 0] : Mat 2 1)) = 0 := by
      ext i j; fin_cases i; fin_cases j; simp [mul_apply]
    rw [hz]
    have hpos : 0 < exactOcc (b := demoB) .gauss T mo (fun _ _ => 0) mu 0 0 := by
      have := neg_one_lt_erf ((mu - 0) / (kB * T))
      simp only [exactOcc, idealFn]
      exact mul_pos hm (by linarith)
    simp only [Fin.sum_univ_one, Matrix.zero_apply, map_zero, zero_mul, mul_zero, sub_zero]
    have := sq_nonneg (occs (n := demoB) .gauss T mo (fun _ _ => 0) mu 0 0)
    have := pow_pos hpos 2
    linarith

/-! ## A run -/

/-- the levels of `flipH` are -1 and 1 -/
theorem flip_gap : ∃ (V : Orbitals demoN demoB), ∀ k, Lowest (flipH k) (1 : Mat 2 2) (V k) (fun _ => -1) ∧
    GapAbove (flipH k) (1 : Mat 2 2) (V k) (fun _ => -1) 2 := by
  have h2 : (√2 : ℝ) * √2 = 2 := mul_self_sqrt (by norm_num)
  have hp : (0 : ℝ) < √2 := sqrt_pos.2 (by norm_num)
  have hc : ((1 / √2 : ℝ) : ℂ) * ((1 / √2 : ℝ) : ℂ) = 1 / 2 := by
    rw [← Complex.ofReal_mul, div_mul_div_comm, h2]; norm_num
  set a : ℂ := ((1 / √2 : ℝ) : ℂ) with ha
  have hstar : star a = a := by rw [ha]; exact Complex.conj_ofReal _
  have hstar' : (starRingEnd ℂ) a = a := hstar
  have hperp : ∀ v : Fin 2 → ℂ, (!![a; -a] : Mat 2 1)ᴴ *ᵥ ((1 : Mat 2 2) *ᵥ v) = 0 → v 0 = v 1 := fun v hv => by
    have := congrFun hv 0
    simp [mulVec, dotProduct, Fin.sum_univ_two, hstar'] at this
    have ha0 : a ≠ 0 := by
      intro h0
      rw [h0] at hc
      norm_num at hc
    have h3 : a * (v 0 - v 1) = 0 := by linear_combination this
    rcases mul_eq_zero.1 h3 with h | h
    · exact absurd h ha0
    · exact sub_eq_zero.1 h
  have hexp : ∀ v : Fin 2 → ℂ, v 0 = v 1 → expectation (!![0, 1; 1, 0] : Mat 2 2) v = expectation (1 : Mat 2 2) v := fun v hv => by
    simp [expectation, mulVec, dotProduct, Fin.sum_univ_two, hv]
  have hpos : ∀ v : Fin 2 → ℂ, 0 ≤ expectation (1 : Mat 2 2) v := fun v =>
    (Complex.le_def.1 ((PosSemidef.one (n := Fin 2) (R := ℂ)).dotProduct_mulVec_nonneg v)).1
  refine ⟨fun _ => !![a; -a], fun k => ⟨⟨?_, ?_, fun v hv i => ?_⟩, fun v hv i => ?_⟩⟩
  · show (!![a; -a] : Mat 2 1)ᴴ * ((1 : Mat 2 2) * !![a; -a]) = 1
    ext i j
    fin_cases i; fin_cases j
    simp [mul_apply, Fin.sum_univ_two, hstar']
    linear_combination 2 * hc
  · show (!![0, 1; 1, 0] : Mat 2 2) * !![a; -a] = (1 : Mat 2 2) * !![a; -a] * diagonal fun _ => ((-1 : ℝ) : ℂ)
    ext i j
    fin_cases i <;> fin_cases j <;> simp
  · show (-1 : ℝ) * expectation (1 : Mat 2 2) v ≤ expectation (!![0, 1; 1, 0] : Mat 2 2) v
    rw [hexp v (hperp v hv)]
    linarith [hpos v]
  · show (-1 + 2 : ℝ) * expectation (1 : Mat 2 2) v ≤ expectation (!![0, 1; 1, 0] : Mat 2 2) v
    rw [hexp v (hperp v hv)]
    linarith [hpos v]

/-- all hypotheses of `C137_returned` at once: the run of C99, whose Hamiltonian has levels -1 and 1 -/
example : ∃ (prm : NlcgParams ℝ) (info : Info ℝ) (w' : _) (F mu : ℝ) (X V : Orbitals demoN demoB) (f : Bands demoB),
    solve flipHost (demoCfg demoSearch) prm 0 0 (demoStart 5) = some (.ok info, w') ∧
    ReturnedState flipHost (demoCfg demoSearch) (bandEnergy flipH (demoCfg demoSearch).wk) info w'.s.h F X f ∧
    ∑ k, (demoCfg demoSearch).wk k * distSq 1 (densityOf (X k) (f k)) (densityOf (V k) (exactOcc .gauss 300 2 (fun _ _ => -1) mu k))
      ≤ densityFactor .gauss 300 2 2 * (F - exactFreeEnergy (b := demoB) .gauss 300 2 (demoCfg demoSearch).wk (fun _ _ => -1) mu
        + |mu| * (1 / 10 ^ 11) + kB * 300 * 2 * cutoffError .gauss * ∑ k, (demoCfg demoSearch).wk k * demoB k) := by
  obtain ⟨V, hV⟩ := flip_gap
  obtain ⟨mu, hmu⟩ := exists_mu (t := .gauss) trivial (T := 300) (mo := 2) (by norm_num) (demoCfg demoSearch).wk
    (fun (_ : Fin 1) (_ : Fin 1) => (-1 : ℝ)) (ne := 1) (by norm_num) (by norm_num [demoCfg])
  obtain ⟨prm, info, w', hm, q1⟩ := flip_run
  obtain ⟨F, X, f, r⟩ := C136_state flip_setting flip_noninteracting.energy (fun _ => searchOcc_clean _ _ _ _ _ _)
    flip_start hm q1
  refine ⟨prm, info, w', F, mu, X, V, f, q1, r, ?_⟩
  exact C137_returned flip_setting trivial (by norm_num [demoCfg]) (by norm_num [demoCfg]) (fun h => nomatch h) (by norm_num) flip_herm
    (p := { T := 300, occ := 2, ne := 1, tol := 1 / 10 ^ 11 }) (key := fun _ => toLex (0, 0))
    (fun a b _ => Subsingleton.elim a b) rfl (V := V) (fun k => (hV k).1) (fun k => (hV k).2) (mu := mu) hmu r

end Nlcg
