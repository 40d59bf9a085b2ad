import Verif.Proofs.Variational
import Verif.Props.Physical

/-! # The variational principle: C99 -/

namespace Nlcg
open Matrix Spec Real ComplexOrder

variable {K : ℕ} {n b : Fin K → ℕ} {η : Type} {host : Host η n b} {c : Cfg n b} {prm : NlcgParams ℝ}
  {fuel rank : ℕ} {w w' : NState ℝ (SState η n b)} {o : Res (Info ℝ)}

theorem ideal_dual_mono {t : SmearType} (ht : Monotonic t) {y z : ℝ} (h : y ≤ z) :
    idealEntropy t y + y * idealFn t y ≤ idealEntropy t z + z * idealFn t z := by
  have h1 := dual_ideal ht y z
  have h2 := mul_le_mul_of_nonneg_right h (idealFn_nonneg ht y)
  linarith

theorem sum_bound (A O M D L E : Fin K → ℝ) (mu q kT : ℝ)
    (h : ∀ k, A k + mu * (O k - M k) - q * D k ≤ L k + -kT * E k) :
    ∑ k, A k + mu * (∑ k, O k - ∑ k, M k) - q * ∑ k, D k ≤ ∑ k, L k + -kT * ∑ k, E k := by
  have := Finset.sum_le_sum fun k (_ : k ∈ Finset.univ) => h k
  simpa only [Finset.sum_add_distrib, Finset.sum_sub_distrib, ← Finset.mul_sum] using this

/-- **C99 (any state).** Orthonormal orbitals with occupations that belong to any pseudo-energies `ek`
and any chemical potential have a free energy not below that of the exact solution, up to the cost
`mu` of each electron by which the numbers of electrons differ. -/
theorem C99_variational {t : SmearType} (ht : Monotonic t) {T mo : ℝ} (hT : 0 < T) (hm : 0 ≤ mo)
    (hg : t = .gaussianSpline → 1 ≤ mo) {wk : Fin K → ℝ} (hw : ∀ k, 0 ≤ wk k)
    {H S : (k : Fin K) → Mat (n k) (n k)} (hH : ∀ k, (H k).IsHermitian) (hS : ∀ k, (S k).PosSemidef)
    {V : Orbitals n b} {e : Bands b} (hV : ∀ k, Lowest (H k) (S k) (V k) (e k)) (mu : ℝ)
    {X : Orbitals n b} (hX : ∀ k, SOrtho (S k) (X k)) (ek : Bands b) (nu : ℝ) :
    exactFreeEnergy t T mo wk e mu + mu * (electrons wk (occs t T mo ek nu) - exactElectrons t T mo wk e mu)
        - kB * T * mo * cutoffError t * ∑ k, wk k * b k
      ≤ bandEnergy H wk X (occs t T mo ek nu)
        + -(kB * T) * ∑ k, wk k * ∑ i, (smearFns t).entropy ((nu - ek k i) / (kB * T)) mo := by
  have hkT : (0 : ℝ) < kB * T := mul_pos kB_pos hT
  have hmon : Antitone fun x => kB * T * (mo * (idealEntropy t ((mu - x) / (kB * T))
      + (mu - x) / (kB * T) * idealFn t ((mu - x) / (kB * T)) + cutoffError t)) := fun x x' hxx => by
    refine mul_le_mul_of_nonneg_left (mul_le_mul_of_nonneg_left ?_ hm) hkT.le
    have := ideal_dual_mono ht (y := (mu - x') / (kB * T)) (z := (mu - x) / (kB * T))
      (div_le_div_of_nonneg_right (by linarith) hkT.le)
    linarith
  have key : ∀ k, ∑ i, (kB * T * (smearFns t).entropy ((nu - ek k i) / (kB * T)) mo + mu * occs t T mo ek nu k i
        - levels H X k i * occs t T mo ek nu k i)
      ≤ ∑ j, kB * T * (mo * (idealEntropy t ((mu - e k j) / (kB * T))
        + (mu - e k j) / (kB * T) * idealFn t ((mu - e k j) / (kB * T)) + cutoffError t)) := fun k => by
    simp only [levels_eq]
    refine ky_fan (hH k) (hS k) (hV k) (hX k)
      (s := fun i => kB * T * (smearFns t).entropy ((nu - ek k i) / (kB * T)) mo + mu * occs t T mo ek nu k i)
      (f := fun i => occs t T mo ek nu k i) (fun i => (C06_occupation_bounds t ht _ mo hm).1) hmon fun i x => ?_
    have := mul_le_mul_of_nonneg_left (level_dual ht hm hg ((nu - ek k i) / (kB * T)) ((mu - x) / (kB * T))) hkT.le
    refine le_trans (le_of_eq ?_) this
    have hy : kB * T * ((mu - x) / (kB * T)) = mu - x := mul_div_cancel₀ _ hkT.ne'
    simp only [occs]
    generalize (smearFns t).fn ((nu - ek k i) / (kB * T)) mo = f
    generalize (smearFns t).entropy ((nu - ek k i) / (kB * T)) mo = s
    linear_combination -f * hy
  have h2 : ∀ k, wk k * ∑ i, mo * (e k i * idealFn t ((mu - e k i) / (kB * T))
          - kB * T * idealEntropy t ((mu - e k i) / (kB * T)))
        + mu * (wk k * ∑ i, occs t T mo ek nu k i - wk k * ∑ i, mo * idealFn t ((mu - e k i) / (kB * T)))
        - kB * T * mo * cutoffError t * (wk k * b k)
      ≤ wk k * ∑ i, occs t T mo ek nu k i * levels H X k i
        + -(kB * T) * (wk k * ∑ i, (smearFns t).entropy ((nu - ek k i) / (kB * T)) mo) := fun k => by
    have h3 : ∑ j, kB * T * (mo * (idealEntropy t ((mu - e k j) / (kB * T))
        + (mu - e k j) / (kB * T) * idealFn t ((mu - e k j) / (kB * T)) + cutoffError t))
        = mu * (∑ i, mo * idealFn t ((mu - e k i) / (kB * T))) + kB * T * mo * cutoffError t * b k
          - ∑ i, mo * (e k i * idealFn t ((mu - e k i) / (kB * T)) - kB * T * idealEntropy t ((mu - e k i) / (kB * T))) := by
      have hb : kB * T * mo * cutoffError t * b k = ∑ _i : Fin (b k), kB * T * mo * cutoffError t := by
        rw [Finset.sum_const, Finset.card_univ, Fintype.card_fin, nsmul_eq_mul, mul_comm]
      rw [hb, Finset.mul_sum, ← Finset.sum_add_distrib, ← Finset.sum_sub_distrib]
      refine Finset.sum_congr rfl fun j _ => ?_
      have hy : kB * T * ((mu - e k j) / (kB * T)) = mu - e k j := mul_div_cancel₀ _ hkT.ne'
      generalize idealFn t ((mu - e k j) / (kB * T)) = f
      generalize idealEntropy t ((mu - e k j) / (kB * T)) = s
      linear_combination mo * f * hy
    have h4 := key k
    rw [h3, Finset.sum_sub_distrib, Finset.sum_add_distrib, ← Finset.mul_sum, ← Finset.mul_sum] at h4
    have h5 := mul_le_mul_of_nonneg_left h4 (hw k)
    have h6 : ∑ i, occs t T mo ek nu k i * levels H X k i = ∑ i, levels H X k i * occs t T mo ek nu k i :=
      Finset.sum_congr rfl fun i _ => mul_comm _ _
    rw [h6]
    linarith
  simp only [exactFreeEnergy, electrons, exactElectrons, bandEnergy]
  exact sum_bound _ _ _ _ _ _ _ _ _ h2

/-- **C99.** Electrons that do not interact: no free energy that a run reports lies below the exact one
(up to the tolerance of the search for the chemical potential). -/
theorem C99_reported (hs : Setting host c) (h0 : SStart host c w.s) {H : (k : Fin K) → Mat (n k) (n k)}
    (hn : NonInteracting host c H) (hH : ∀ k, (H k).IsHermitian) (ht : Monotonic c.t) (hT : 0 < c.T) (hm : 0 ≤ c.mo)
    (hg : c.t = .gaussianSpline → 1 ≤ c.mo) {p : OccParams ℝ} {key : Fin K → Key} (hk : Function.Injective key)
    (hc : c.occ = searchOcc false c.t p key c.wk) {V : Orbitals n b} {e : Bands b}
    (hV : ∀ k, Lowest (H k) (c.S k) (V k) (e k)) {mu : ℝ} (hN : exactElectrons c.t c.T c.mo c.wk e mu = p.ne)
    (h : solve host c prm fuel rank w = some (o, w')) (i : ℕ) (F S sl : ℝ) (hr : Ev.report i F S sl ∈ w'.trace) :
    exactFreeEnergy c.t c.T c.mo c.wk e mu - |mu| * p.tol - kB * c.T * c.mo * cutoffError c.t * ∑ k, c.wk k * b k ≤ F := by
  obtain ⟨X, ek, nu, hX, hocc, hS, h1, E, h2, rfl, hf, hE, rfl⟩ := C69_reported_energy hs h0 h i F S sl hr
  have hE' := hn.energy.energy _ _ _ ⟨hX, ek, nu, hf⟩ hE
  rw [hf] at hE'
  have key := C99_variational ht hT hm hg (fun k => (hs.weights k).le) hH hs.overlap hV mu hX ek nu
  rw [hc] at hocc
  have hch := (searchOcc_charge hk hocc).1
  rw [hN, ← hE', ← hS] at key
  have h3 : -(|mu| * p.tol) ≤ mu * (electrons c.wk (occs c.t c.T c.mo ek nu) - p.ne) := by
    have h4 : |mu * (electrons c.wk (occs c.t c.T c.mo ek nu) - p.ne)| ≤ |mu| * p.tol := by
      rw [abs_mul, abs_sub_comm]
      exact mul_le_mul_of_nonneg_left hch.le (abs_nonneg _)
    exact (abs_le.1 h4).1
  linarith

/-- **C99.** The same for the free energy that a run returns. -/
theorem C99_returned (hs : Setting host c) (h0 : SStart host c w.s) {H : (k : Fin K) → Mat (n k) (n k)}
    (hn : NonInteracting host c H) (hH : ∀ k, (H k).IsHermitian) (ht : Monotonic c.t) (hT : 0 < c.T) (hm : 0 ≤ c.mo)
    (hg : c.t = .gaussianSpline → 1 ≤ c.mo) {p : OccParams ℝ} {key : Fin K → Key} (hk : Function.Injective key)
    (hc : c.occ = searchOcc false c.t p key c.wk) {V : Orbitals n b} {e : Bands b}
    (hV : ∀ k, Lowest (H k) (c.S k) (V k) (e k)) {mu : ℝ} (hN : exactElectrons c.t c.T c.mo c.wk e mu = p.ne)
    (hmax : 1 ≤ prm.maxiter) (info : Info ℝ) (h : solve host c prm fuel rank w = some (.ok info, w')) :
    ∃ vals, info.vals = some vals ∧ exactFreeEnergy c.t c.T c.mo c.wk e mu - |mu| * p.tol
      - kB * c.T * c.mo * cutoffError c.t * ∑ k, c.wk k * b k ≤ vals.F := by
  obtain ⟨vals, slope, e1, -, -, -, e5, -⟩ := nlcg_record _ (solver_clean host c fun ek => by
    rw [hc]; exact searchOcc_clean _ _ _ _ _ _) (solver_quiet host c) prm fuel rank w w' info hmax h
  exact ⟨vals, e1, C99_reported hs h0 hn hH ht hT hm hg hk hc hV hN h _ _ _ _ (mem_reports.1 e5)⟩

/-- **C99.** The exact solution that the bound refers to always exists: lowest eigenvectors, and a chemical
potential for each number of electrons that fits into the bands. -/
theorem C99_exact_solution_exists {t : SmearType} (ht : Monotonic t) {T mo : ℝ} (hT : 0 < T) (wk : Fin K → ℝ)
    {H S : (k : Fin K) → Mat (n k) (n k)} (hH : ∀ k, (H k).IsHermitian) (hS : ∀ k, (S k).PosDef) (hb : ∀ k, b k ≤ n k)
    {ne : ℝ} (h0 : 0 < ne) (h1 : ne < ∑ k, wk k * (b k * mo)) :
    ∃ (V : Orbitals n b) (e : Bands b) (mu : ℝ), (∀ k, Lowest (H k) (S k) (V k) (e k)) ∧
      exactElectrons t T mo wk e mu = ne := by
  choose V e hV using fun k => exists_lowest (hH k) (hS k) (hb k)
  obtain ⟨mu, hmu⟩ := exists_mu ht hT wk e h0 h1
  exact ⟨V, e, mu, hV, hmu⟩

/-- **C99.** The bound is attained: with Gauss smearing, which has no cut-offs, the code gives the exact free
energy at the exact solution. -/
theorem C99_attained {T mo : ℝ} {wk : Fin K → ℝ} {H S : (k : Fin K) → Mat (n k) (n k)} {V : Orbitals n b} {e : Bands b}
    (hV : ∀ k, Lowest (H k) (S k) (V k) (e k)) (mu : ℝ) :
    bandEnergy H wk V (occs .gauss T mo e mu)
        + -(kB * T) * ∑ k, wk k * ∑ i, (smearFns .gauss).entropy ((mu - e k i) / (kB * T)) mo
      = exactFreeEnergy .gauss T mo wk e mu := by
  have hl : ∀ k i, levels H V k i = e k i := fun k i => by
    have h1 := (hV k).ortho
    rw [SOrtho] at h1
    rw [levels, (hV k).eigen, ← Matrix.mul_assoc, h1, Matrix.one_mul, diagonal_apply_eq, Complex.ofReal_re]
  simp only [bandEnergy, exactFreeEnergy, hl, Finset.mul_sum, ← Finset.sum_add_distrib]
  refine Finset.sum_congr rfl fun k _ => Finset.sum_congr rfl fun i _ => ?_
  show wk k * (gaussFn _ mo * e k i) + -(kB * T) * (wk k * gaussEntropy _ mo) = _
  simp only [gaussFn, gaussEntropy, idealFn, idealEntropy, neg_sq_eq]
  ring

/-- **C99** does not extend to Methfessel-Paxton smearing: already for one level there are occupations with
the right number of electrons and a free energy below that of an exact solution. -/
theorem C99_not_methfessel_paxton {T mo : ℝ} (hT : 0 < T) (hmo : 0 < mo) : ∃ (mu nu : ℝ),
    electrons (fun _ => 1) (occs .methfesselPaxton T mo (fun (_ : Fin 1) (_ : Fin 1) => 0) nu)
      = exactElectrons .methfesselPaxton T mo (fun _ => 1) (fun (_ : Fin 1) (_ : Fin 1) => 0) mu ∧
    bandEnergy (fun _ => (0 : Mat 1 1)) (fun _ => 1) (fun _ => (1 : Mat 1 1))
        (occs .methfesselPaxton T mo (fun (_ : Fin 1) (_ : Fin 1) => 0) nu)
        + -(kB * T) * ∑ _k : Fin 1, 1 * ∑ _i : Fin 1, (smearFns .methfesselPaxton).entropy ((nu - 0) / (kB * T)) mo
      < exactFreeEnergy .methfesselPaxton T mo (fun _ => 1) (fun (_ : Fin 1) (_ : Fin 1) => 0) mu := by
  have hkT : (0 : ℝ) < kB * T := mul_pos kB_pos hT
  obtain ⟨x, h0, hx, he⟩ := mp_twice hmo
  have hsq : √(3 / 2 : ℝ) * √(3 / 2) = 3 / 2 := mul_self_sqrt (by norm_num)
  have hlt := mp_increasing hmo h0 hx (y := 3) (by nlinarith [sqrt_nonneg (3 / 2 : ℝ)])
  rw [he] at hlt
  have hf : ∀ z, mo * idealFn .methfesselPaxton z = mpFn z mo := fun z => by
    simp only [idealFn, mpFn, neg_sq_eq, neg_mul]
    field_simp
    ring
  have hs : ∀ z, mo * idealEntropy .methfesselPaxton z = mpEntropy z mo := fun z => by
    simp only [idealEntropy, mpEntropy, neg_sq_eq, neg_mul]
    field_simp
  have hz : ∀ z : ℝ, (kB * T * z - 0) / (kB * T) = z := fun z => by rw [sub_zero, mul_div_cancel_left₀ _ hkT.ne']
  refine ⟨kB * T * x, kB * T * 3, ?_, ?_⟩
  · simp only [electrons, exactElectrons, Fin.sum_univ_one, hf, hz, occs, one_mul]
    exact he.symm
  · simp only [bandEnergy, exactFreeEnergy, levels, Fin.sum_univ_one, hz, one_mul, Matrix.zero_mul, Matrix.mul_zero,
      Matrix.zero_apply, Complex.zero_re, mul_zero, zero_mul, zero_add, zero_sub]
    have : mo * -(kB * T * idealEntropy .methfesselPaxton x) = -(kB * T) * mpEntropy x mo := by rw [← hs]; ring
    rw [this]
    show -(kB * T) * mpEntropy 3 mo < _
    have : mpEntropy x mo < mpEntropy 3 mo := by linarith
    nlinarith

/-! ## A run -/

noncomputable def flipH : (k : Fin 1) → Mat (demoN k) (demoN k) := fun _ => !![0, 1; 1, 0]

theorem flip_herm (k : Fin 1) : (flipH k).IsHermitian := by
  ext i j
  fin_cases i <;> fin_cases j <;> simp [flipH]

noncomputable def flipHost : Host (LState demoN demoB) demoN demoB := linearHost flipH fun _ => 1

theorem flip_setting : Setting flipHost (demoCfg demoSearch) where
  host := linearHost_ok _ flip_herm _
  lapack := refLapack_ok
  overlap := fun _ => PosSemidef.one
  prec := fun _ => PosDef.one
  weights := fun _ => one_pos
  occ := fun _ _ _ h => (searchOcc_ok h).2

theorem flip_noninteracting : NonInteracting flipHost (demoCfg demoSearch) flipH :=
  linearHost_noninteracting flipH flip_herm (demoCfg demoSearch) fun ek ek' mu mu' f f' hp h h' => by
    have h1 := (searchOcc_ok h).1
    have h2 := (searchOcc_ok h').1
    rw [globalSearch_perm false _ _ _ (fun a b _ => Subsingleton.elim a b) _ ek ek' hp, h1] at h2
    exact (Res.ok.inj h2).symm

theorem flip_never_throws : NeverThrows flipHost :=
  ⟨fun _ => ⟨_, rfl⟩, fun _ _ => ⟨_, rfl⟩, fun _ _ => ⟨_, rfl⟩, fun _ _ => ⟨_, rfl⟩, fun _ => ⟨_, _, rfl⟩,
    fun _ => ⟨_, rfl⟩⟩

theorem flip_search : (demoCfg demoSearch).occ (fun _ _ => 0) = .ok (0, occs .gauss 300 2 (fun _ _ => 0) 0) := by
  show searchOcc false .gauss _ _ (fun _ => 1) (fun _ _ => 0) = _
  rw [searchOcc_global]
  have hi : Function.Injective (fun _ : Fin 1 => (toLex (0, 0) : Key)) := fun a b _ => Subsingleton.elim a b
  have : globalSearch false (smearFns .gauss) (smearFns .gauss)
      { T := 300, occ := 2, ne := 1, tol := 1 / 10 ^ 11 } (oneRank (b := demoB) (fun _ => toLex (0, 0)) (fun _ => 1) (fun _ _ => 0))
      = .ok 0 := by
    simp only [globalSearch, Bool.false_eq_true, if_false, chemPotGathered]
    refine findChemPotRun_zero ?_ (by norm_num)
    rw [kSum_oneRank _ _ hi, Fin.sum_univ_one]
    simp only [real_lit, real_sub, List.map_ofFn, List.sum_ofFn, Function.comp_def, Fin.sum_univ_one, id]
    show 1 - 1 * gaussFn _ 2 = 0
    simp [gaussFn, erf_zero]
  rw [this]
  rfl

theorem flip_setup : ∃ pt s2, solverSetup flipHost (demoCfg demoSearch) (demoStart 5).s = (.ok pt, s2) := by
  have e0 : flipHost.ek (flipHost.compute (demoStart 5).s.h).2 = fun _ _ => 0 := by
    funext k i
    show (((!![(1 : ℂ); 0])ᴴ * ((!![0, 1; 1, 0] : Mat 2 2) * !![(1 : ℂ); 0])) i i).re = 0
    fin_cases i
    simp [mul_apply, Fin.sum_univ_two]
  rw [solverSetup, hostCall_bind]
  have hcomp : flipHost.compute (demoStart 5).s.h = (some (), (flipHost.compute (demoStart 5).s.h).2) := rfl
  rw [hcomp]
  simp only []
  rw [SM.get_bind, SM.lift_bind]
  simp only [e0, flip_search]
  rw [SM.get_bind, SM.bind_apply]
  obtain ⟨s', he⟩ := evaluate_total (c := demoCfg demoSearch) flip_never_throws
    (flipHost.C (flipHost.compute (demoStart 5).s.h).2) (occs .gauss 300 2 (fun _ _ => 0) 0) (fun _ _ => 0) 0
    { h := (flipHost.compute (demoStart 5).s.h).2, F := 5, S := 0, calls := [] ++ [.compute] }
  have he' := he
  simp only [demoStart] at he' ⊢
  simp only [he']
  rw [SM.get_bind, SM.pure_apply]
  exact ⟨_, _, rfl⟩

theorem flip_run : ∃ (prm : NlcgParams ℝ) (info : Info ℝ) (w' : _), 1 ≤ prm.maxiter ∧
    solve flipHost (demoCfg demoSearch) prm 0 0 (demoStart 5) = some (.ok info, w') := by
  obtain ⟨pt, s2, h2⟩ := flip_setup
  obtain ⟨tol, htol⟩ : ∃ tol : ℝ, |(restarted (demoCfg demoSearch).la (dirParams (demoCfg demoSearch) pt)
    (kIn flipHost (demoCfg demoSearch) pt s2.h)).1| < tol := exists_gt _
  obtain ⟨info, w', vals, h3, q1, -⟩ := solve_first (prm := { maxiter := 1, tol := tol, tau := 1 / 10, restart := 1 })
    flip_never_throws (by norm_num [demoCfg]) le_rfl 0 0 h2 htol
  exact ⟨_, info, w', le_rfl, q1⟩

theorem flip_start : SStart flipHost (demoCfg demoSearch) (demoStart 5).s := by
  refine ⟨rfl, fun k => ?_⟩
  show (!![(1 : ℂ); 0])ᴴ * ((1 : Mat 2 2) * !![(1 : ℂ); 0]) = 1
  ext i j; fin_cases i; fin_cases j; simp [mul_apply]

/-- an orbital that is no eigenvector: what the run returns lies above the exact free energy -/
example : ∃ (prm : NlcgParams ℝ) (info : Info ℝ) (w' : _) (vals : _) (V : Orbitals demoN demoB) (e : Bands demoB) (mu : ℝ),
    solve flipHost (demoCfg demoSearch) prm 0 0 (demoStart 5) = some (.ok info, w') ∧ info.vals = some vals ∧
    (∀ k, Lowest (flipH k) ((demoCfg demoSearch).S k) (V k) (e k)) ∧
    exactElectrons (demoCfg demoSearch).t (demoCfg demoSearch).T (demoCfg demoSearch).mo (demoCfg demoSearch).wk e mu = 1 ∧
    exactFreeEnergy (demoCfg demoSearch).t (demoCfg demoSearch).T (demoCfg demoSearch).mo (demoCfg demoSearch).wk e mu
      - |mu| * (1 / 10 ^ 11) ≤ vals.F := by
  obtain ⟨V, e, mu, hV, hmu⟩ := C99_exact_solution_exists (n := demoN) (b := demoB) (t := (demoCfg demoSearch).t) trivial
    (T := (demoCfg demoSearch).T) (mo := (demoCfg demoSearch).mo) (by norm_num [demoCfg]) (demoCfg demoSearch).wk flip_herm
    (S := (demoCfg demoSearch).S) (fun _ => PosDef.one) (fun _ => by norm_num) (ne := 1) (by norm_num) (by norm_num [demoCfg])
  obtain ⟨prm, info, w', hm, q1⟩ := flip_run
  obtain ⟨vals, hv, hb⟩ := C99_returned flip_setting flip_start flip_noninteracting flip_herm trivial
    (by norm_num [demoCfg]) (by norm_num [demoCfg]) (by simp [demoCfg])
    (p := { T := 300, occ := 2, ne := 1, tol := 1 / 10 ^ 11 }) (key := fun _ => toLex (0, 0))
    (fun a b _ => Subsingleton.elim a b) rfl hV (mu := mu) hmu hm info q1
  refine ⟨prm, info, w', vals, V, e, mu, q1, hv, hV, hmu, ?_⟩
  have : cutoffError (demoCfg demoSearch).t = 0 := rfl
  rw [this, mul_zero, zero_mul, sub_zero] at hb
  exact hb

end Nlcg
