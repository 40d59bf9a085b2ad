import Verif.Proofs.Thermo
import Verif.Props.Variational

/-!
# C129: heating raises energy and entropy and lowers the free energy
-/

namespace Nlcg
open Spec Real ComplexOrder

section bands
variable {K : ℕ} {b : Fin K → ℕ} {wk : Fin K → ℝ}

/-- grand potential, code -/
theorem grand_code {t : SmearType} (ht : Monotonic t) {mo : ℝ} (h0 : 0 ≤ mo) (h1 : t = .gaussianSpline → mo = 1)
    (hw : ∀ k, 0 ≤ wk k) {T T' : ℝ} (hT' : 0 < T') (e : Bands b) (mu mu' : ℝ) :
    levelSum wk e (occs t T' mo e mu') - kB * T' * entropySum t T' mo wk e mu' - mu' * electrons wk (occs t T' mo e mu')
      ≤ levelSum wk e (occs t T mo e mu) - kB * T' * entropySum t T mo wk e mu - mu' * electrons wk (occs t T mo e mu)
        + kB * T' * (mo * slack t * ∑ k, wk k * b k) :=
  grand_least (s := fun x => (smearFns t).entropy x mo) (f := fun x => (smearFns t).fn x mo)
    (level_exchange ht h0 h1) hw (mul_pos kB_pos hT') e mu' fun k i => (mu - e k i) / (kB * T)

/-- grand potential, textbook -/
theorem grand_exact {t : SmearType} (ht : Monotonic t) {mo : ℝ} (h0 : 0 ≤ mo)
    (hw : ∀ k, 0 ≤ wk k) {T T' : ℝ} (hT' : 0 < T') (e : Bands b) (mu mu' : ℝ) :
    exactLevelSum t T' mo wk e mu' - kB * T' * exactEntropy t T' mo wk e mu' - mu' * exactElectrons t T' mo wk e mu'
      ≤ exactLevelSum t T mo wk e mu - kB * T' * exactEntropy t T mo wk e mu - mu' * exactElectrons t T mo wk e mu := by
  have := grand_least (s := fun x => mo * idealEntropy t x) (f := fun x => mo * idealFn t x) (δ := 0)
    (fun x y => by
      have := mul_le_mul_of_nonneg_left (dual_ideal ht x y) h0
      linarith) hw (mul_pos kB_pos hT') e mu' fun k i => (mu - e k i) / (kB * T)
  rw [zero_mul, mul_zero, add_zero] at this
  exact this

theorem exactFreeEnergy_eq (t : SmearType) (T mo : ℝ) (wk : Fin K → ℝ) (e : Bands b) (mu : ℝ) :
    exactFreeEnergy t T mo wk e mu = exactLevelSum t T mo wk e mu - kB * T * exactEntropy t T mo wk e mu := by
  simp only [exactFreeEnergy, exactLevelSum, exactEntropy, Finset.mul_sum, ← Finset.sum_sub_distrib]
  refine Finset.sum_congr rfl fun k _ => Finset.sum_congr rfl fun i _ => ?_
  ring

theorem entropySum_nonneg {t : SmearType} (ht : Monotonic t) {mo : ℝ} (h0 : 0 ≤ mo) (hw : ∀ k, 0 ≤ wk k) (T : ℝ)
    (e : Bands b) (mu : ℝ) : 0 ≤ entropySum t T mo wk e mu :=
  Finset.sum_nonneg fun k _ => mul_nonneg (hw k) (Finset.sum_nonneg fun _ _ => entropy_nonneg t ht _ _ h0)

/-- two states, each of which has the least grand potential for its own temperature -/
theorem heating_arith {T T' E E' S S' N N' mu mu' ε : ℝ} (hT : 0 < T) (hTT : T < T')
    (a : E' - kB * T' * S' - mu' * N' ≤ E - kB * T' * S - mu' * N + kB * T' * ε)
    (a' : E - kB * T * S - mu * N ≤ E' - kB * T * S' - mu * N' + kB * T * ε) :
    (T' - T) * (E - E') ≤ (|mu| * T' + |mu'| * T) * |N' - N| + 2 * kB * T * T' * ε ∧
    kB * (T' - T) * (S - S') ≤ |mu' - mu| * |N' - N| + kB * (T + T') * ε := by
  have c1 : -(|mu| * |N' - N|) ≤ mu * (N' - N) := by rw [← abs_mul]; exact neg_abs_le _
  have c2 : mu' * (N' - N) ≤ |mu'| * |N' - N| := by rw [← abs_mul]; exact le_abs_self _
  have c3 : (mu' - mu) * (N' - N) ≤ |mu' - mu| * |N' - N| := by rw [← abs_mul]; exact le_abs_self _
  have b1 := mul_le_mul_of_nonneg_left a hT.le
  have b2 := mul_le_mul_of_nonneg_left a' (hT.trans hTT).le
  have d1 := mul_le_mul_of_nonneg_left c1 (hT.trans hTT).le
  have d2 := mul_le_mul_of_nonneg_left c2 hT.le
  constructor
  · nlinarith
  · nlinarith

/-- **C129 (textbook formulas).** The same bands and the same number of electrons at two temperatures: the hotter state
has the larger energy, the larger entropy and the smaller free energy. -/
theorem C129_exact {t : SmearType} (ht : Monotonic t) {mo : ℝ} (h0 : 0 ≤ mo) (hw : ∀ k, 0 ≤ wk k) {T T' : ℝ}
    (hT : 0 < T) (hTT : T < T') (e : Bands b) {mu mu' : ℝ}
    (hN : exactElectrons t T' mo wk e mu' = exactElectrons t T mo wk e mu) :
    exactLevelSum t T mo wk e mu ≤ exactLevelSum t T' mo wk e mu' ∧
    exactEntropy t T mo wk e mu ≤ exactEntropy t T' mo wk e mu' ∧
    exactFreeEnergy t T' mo wk e mu' ≤ exactFreeEnergy t T mo wk e mu := by
  have a := grand_exact ht h0 hw (T := T) (hT.trans hTT) e mu mu'
  have a' := grand_exact ht h0 hw (T := T') hT e mu' mu
  have z : ∀ x y : ℝ, x ≤ y → ∀ c, x ≤ y + c * 0 := fun x y h c => by simpa using h
  obtain ⟨h1, h2⟩ := heating_arith hT hTT (z _ _ a _) (z _ _ a' _)
  rw [hN, sub_self, abs_zero, mul_zero, mul_zero, add_zero] at h1 h2
  have hd : 0 < T' - T := sub_pos.2 hTT
  have hs : 0 ≤ exactEntropy t T mo wk e mu :=
    Finset.sum_nonneg fun k _ => mul_nonneg (hw k) (Finset.sum_nonneg fun _ _ => mul_nonneg h0 (idealEntropy_nonneg ht _))
  have hkd : 0 < kB * (T' - T) := mul_pos kB_pos hd
  refine ⟨by nlinarith, by nlinarith, ?_⟩
  rw [exactFreeEnergy_eq, exactFreeEnergy_eq]
  rw [hN] at a
  nlinarith

/-- **C129.** Two successful searches for the Fermi level on the same bands at two temperatures. Up to the charge
tolerances `η` of the searches and some `1e-13` per band from the cut-offs, the hotter occupations have the smaller free
energy, the larger energy and the larger entropy. -/
theorem C129_search {t : SmearType} {p p' : OccParams ℝ} {key : Fin K → Key} {ek : Bands b} {mu mu' : ℝ} {f f' : Bands b}
    (ht : Monotonic t) (hk : Function.Injective key) (hT : 0 < p.T) (hTT : p.T < p'.T) (ho : 0 ≤ p.occ)
    (ho' : p'.occ = p.occ) (hn : p'.ne = p.ne) (hs : t = .gaussianSpline → p.occ = 1) (hw : ∀ k, 0 ≤ wk k)
    (h : searchOcc false t p key wk ek = .ok (mu, f)) (h' : searchOcc false t p' key wk ek = .ok (mu', f'))
    {η ε : ℝ} (hη : η = p.tol + p'.tol) (hε : ε = p.occ * slack t * ∑ k, wk k * b k) :
    levelSum wk ek f' - kB * p'.T * entropySum t p'.T p'.occ wk ek mu' ≤
      levelSum wk ek f - kB * p.T * entropySum t p.T p.occ wk ek mu + |mu'| * η + kB * p'.T * ε ∧
    (p'.T - p.T) * (levelSum wk ek f - levelSum wk ek f') ≤ (|mu| * p'.T + |mu'| * p.T) * η + 2 * kB * p.T * p'.T * ε ∧
    kB * (p'.T - p.T) * (entropySum t p.T p.occ wk ek mu - entropySum t p'.T p'.occ wk ek mu') ≤
      |mu' - mu| * η + kB * (p.T + p'.T) * ε := by
  have hf := (searchOcc_ok h).2
  have hf' := (searchOcc_ok h').2
  have hc := (searchOcc_charge hk h).1
  have hc' := (searchOcc_charge hk h').1
  have hN : |electrons wk f' - electrons wk f| ≤ η := by
    rw [hη]
    unfold electrons
    rw [abs_lt] at hc hc'
    rw [abs_le]
    constructor <;> linarith [hc.1, hc.2, hc'.1, hc'.2]
  have a := grand_code ht ho hs hw (T := p.T) (hT.trans hTT) ek mu mu'
  have a' := grand_code ht ho hs hw (T := p'.T) hT ek mu' mu
  rw [ho'] at hf' ⊢
  rw [← hf, ← hf', ← hε] at a a'
  obtain ⟨h1, h2⟩ := heating_arith hT hTT a a'
  have hd : 0 < p'.T - p.T := sub_pos.2 hTT
  refine ⟨?_, h1.trans ?_, h2.trans ?_⟩
  · have e1 : mu' * (electrons wk f' - electrons wk f) ≤ |mu'| * η := by
      refine (le_abs_self _).trans ?_
      rw [abs_mul]
      exact mul_le_mul_of_nonneg_left hN (abs_nonneg _)
    have e2 : 0 ≤ kB * (p'.T - p.T) * entropySum t p.T p.occ wk ek mu :=
      mul_nonneg (mul_pos kB_pos hd).le (entropySum_nonneg ht ho hw _ _ _)
    linarith
  · have : (|mu| * p'.T + |mu'| * p.T) * |electrons wk f' - electrons wk f| ≤ (|mu| * p'.T + |mu'| * p.T) * η :=
      mul_le_mul_of_nonneg_left hN (by have := hT.trans hTT; positivity)
    linarith
  · have : |mu' - mu| * |electrons wk f' - electrons wk f| ≤ |mu' - mu| * η :=
      mul_le_mul_of_nonneg_left hN (abs_nonneg _)
    linarith

/-- **C129** does not extend to Methfessel-Paxton smearing: one level, the same number of electrons, and the free energy
rises with the temperature. -/
theorem C129_not_methfessel_paxton {T T' mo : ℝ} (hT : 0 < T) (hTT : T < T') (hmo : 0 < mo) : ∃ (e : Bands fun _ : Fin 1 => 1)
    (mu mu' : ℝ), electrons (fun _ => 1) (occs .methfesselPaxton T' mo e mu')
        = electrons (fun _ => 1) (occs .methfesselPaxton T mo e mu) ∧
      bandFree .methfesselPaxton T mo (fun _ => 1) e mu < bandFree .methfesselPaxton T' mo (fun _ => 1) e mu' := by
  have hk := kB_pos
  have e1 : (kB * T * 1 - 0) / (kB * T) = 1 := by rw [mul_one, sub_zero, div_self (mul_pos hk hT).ne']
  have e2 : (kB * T' * 1 - 0) / (kB * T') = 1 := by rw [mul_one, sub_zero, div_self (mul_pos hk (hT.trans hTT)).ne']
  refine ⟨fun _ _ => 0, kB * T * 1, kB * T' * 1, ?_, ?_⟩
  · simp only [electrons, occs, e1, e2]
  · simp only [bandFree, levelSum, entropySum, occs, e1, e2, zero_mul, Finset.univ_unique, Finset.sum_singleton, mul_zero,
      zero_sub, one_mul]
    have hneg : (smearFns .methfesselPaxton).entropy 1 mo < 0 := by
      show mo * exp (-(1 * 1)) * (1 - 2 * (1 * 1)) / 4 / √π < 0
      have : 0 < mo * exp (-(1 * 1)) / 4 / √π := by positivity
      linarith [show mo * exp (-(1 * 1)) * (1 - 2 * (1 * 1)) / 4 / √π = -(mo * exp (-(1 * 1)) / 4 / √π) by ring]
    have : kB * T < kB * T' := mul_lt_mul_of_pos_left hTT hk
    nlinarith

/-- the same arguments of the smearing functions at another temperature -/
theorem rescaled {T T' : ℝ} (hT : 0 < T) (hT' : 0 < T') (mu x : ℝ) :
    (T' / T * mu - T' / T * x) / (kB * T') = (mu - x) / (kB * T) := by
  have := kB_pos
  have := hT.ne'
  have := hT'.ne'
  have : (kB : ℝ) ≠ 0 := kB_pos.ne'
  field_simp

/-- the same occupations and the same entropy at another temperature -/
theorem same_state {T T' : ℝ} (hT : 0 < T) (hT' : 0 < T') (t : SmearType) (mo : ℝ) (wk : Fin K → ℝ) (ek : Bands b)
    (mu : ℝ) : occs t T' mo (fun k i => T' / T * ek k i) (T' / T * mu) = occs t T mo ek mu ∧
      entropySum t T' mo wk (fun k i => T' / T * ek k i) (T' / T * mu) = entropySum t T mo wk ek mu := by
  constructor
  · funext k i
    simp only [occs, rescaled hT hT']
  · simp only [entropySum, rescaled hT hT']

end bands

section states
variable {K : ℕ} {n b : Fin K → ℕ} {wk : Fin K → ℝ}

/-- **C129 (electrons that interact).** For every energy, every smearing and every number of electrons: of two states of
least free energy at two temperatures, the hotter one has the larger energy and the larger entropy; and the smaller free
energy, if the entropy is not negative. -/
theorem C129_equilibria {E : Orbitals n b → Bands b → ℝ} {S : (k : Fin K) → Mat (n k) (n k)} {t : SmearType}
    {T T' mo N mu mu' : ℝ} (hT : 0 < T) (hTT : T < T') {X X' : Orbitals n b} {ek ek' : Bands b}
    (h : Equilibrium E S t T mo wk N X ek mu) (h' : Equilibrium E S t T' mo wk N X' ek' mu') :
    E X (occs t T mo ek mu) ≤ E X' (occs t T' mo ek' mu') ∧
    entropySum t T mo wk ek mu ≤ entropySum t T' mo wk ek' mu' ∧
    (Monotonic t → 0 ≤ mo → (∀ k, 0 ≤ wk k) → stateFree E t T' mo wk X' ek' mu' ≤ stateFree E t T mo wk X ek mu) := by
  have hT' := hT.trans hTT
  obtain ⟨a1, a2⟩ := same_state hT hT' t mo wk ek mu
  obtain ⟨b1, b2⟩ := same_state hT' hT t mo wk ek' mu'
  have e1 := h'.least X _ _ h.ortho (by rw [a1]; exact h.count)
  have e2 := h.least X' _ _ h'.ortho (by rw [b1]; exact h'.count)
  simp only [stateFree, a1, a2, b1, b2] at e1 e2 ⊢
  have hd : 0 < kB * (T' - T) := mul_pos kB_pos (sub_pos.2 hTT)
  have hS : entropySum t T mo wk ek mu ≤ entropySum t T' mo wk ek' mu' := by nlinarith
  refine ⟨?_, hS, fun ht h0 hw => ?_⟩
  · have := mul_le_mul_of_nonneg_left hS (mul_pos kB_pos hT).le
    linarith
  · have := mul_nonneg hd.le (entropySum_nonneg ht h0 hw T ek mu)
    linarith

variable {η : Type} {host : Host η n b} {c : Cfg n b} {prm : NlcgParams ℝ} {fuel rank : ℕ}
  {w w' : NState ℝ (SState η n b)} {o : Res (Info ℝ)}

/-- **C129 (runs).** Every free energy that a run reports, whatever the host is, is at least the least free energy at any
higher temperature: there is a state at that temperature with the same number of electrons that lies lower by the
difference of the temperatures times the entropy. -/
theorem C129_reported (hs : Setting host c) (h0 : SStart host c w.s) {E : Orbitals n b → Bands b → ℝ}
    (hE : EnergyOf host c E) (ht : Monotonic c.t) (hT : 0 < c.T) (hm : 0 ≤ c.mo) {p : OccParams ℝ} {key : Fin K → Key}
    (hk : Function.Injective key) (hc : c.occ = searchOcc false c.t p key c.wk)
    (h : solve host c prm fuel rank w = some (o, w')) (i : ℕ) (F S sl : ℝ) (hr : Ev.report i F S sl ∈ w'.trace)
    {T' : ℝ} (hTT : c.T ≤ T') : ∃ X ek mu, (∀ k, SOrtho (c.S k) (X k)) ∧
      |electrons c.wk (occs c.t T' c.mo ek mu) - p.ne| < p.tol ∧
      stateFree E c.t T' c.mo c.wk X ek mu = F + (T' / c.T - 1) * S ∧ S ≤ 0 ∧
      stateFree E c.t T' c.mo c.wk X ek mu ≤ F := by
  obtain ⟨X, ek, nu, hX, hocc, hS, h1, E1, h2, rfl, hf, hE1, rfl⟩ := C69_reported_energy hs h0 h i F S sl hr
  have hE' := hE.energy _ _ _ ⟨hX, ek, nu, hf⟩ hE1
  rw [hf] at hE'
  rw [hc] at hocc
  have hch := (searchOcc_charge hk hocc).1
  obtain ⟨a1, a2⟩ := same_state hT (hT.trans_le hTT) c.t c.mo c.wk ek nu
  have h3 : S ≤ 0 := by
    rw [hS, neg_mul]
    exact neg_nonpos.2 (mul_nonneg (mul_pos kB_pos hT).le
      (entropySum_nonneg ht hm (fun k => (hs.weights k).le) c.T ek nu))
  have h4 : stateFree E c.t T' c.mo c.wk (host.C h1) (fun k i => T' / c.T * ek k i) (T' / c.T * nu)
      = E1 + S + (T' / c.T - 1) * S := by
    rw [stateFree, a1, a2, hE', hS]
    unfold entropySum
    have := hT.ne'
    field_simp
    ring
  refine ⟨host.C h1, fun k i => T' / c.T * ek k i, T' / c.T * nu, hX, by rw [a1, abs_sub_comm]; exact hch, h4, h3, ?_⟩
  rw [h4]
  have h5 : 0 ≤ T' / c.T - 1 := sub_nonneg.2 ((one_le_div hT).2 hTT)
  linarith [mul_nonneg h5 (neg_nonneg.2 h3)]

end states

/-! ## Cases -/

/-- levels at -1 and 1 Hartree, two electrons, at any temperature -/
theorem pair_search (p : OccParams ℝ) (ho : p.occ = 2) (hn : p.ne = 2) (ht : 0 < p.tol) :
    searchOcc false .gauss p (fun _ : Fin 1 => toLex (0, 0)) (fun _ => 1) (fun _ => ![-1, 1]) =
      .ok (0, occs .gauss p.T p.occ (fun _ => ![-1, 1]) 0) := by
  rw [searchOcc_global]
  have : globalSearch false (smearFns .gauss) (smearFns .gauss) p
      (oneRank (fun _ : Fin 1 => toLex (0, 0)) (fun _ => 1) (fun _ => ![-1, 1])) = .ok 0 := by
    simp only [globalSearch, Bool.false_eq_true, if_false, chemPotGathered]
    refine findChemPotRun_zero ?_ (by simpa using ht)
    rw [kSum_oneRank id _ (Function.injective_of_subsingleton _)]
    simp only [List.ofFn_succ, List.ofFn_zero, List.map_cons, List.map_nil, List.sum_cons, List.sum_nil,
      Fin.sum_univ_one, id]
    simp only [smearFns, gaussFn, ho, hn]
    simp
    ring_nf
    rw [erf_neg]
    ring
  rw [this]
  rfl

/-- 300 K and 3000 K: both searches succeed, and the energy is larger at 3000 K up to the tolerances -/
example : ∃ (f f' : Bands fun _ : Fin 1 => 2),
    searchOcc false .gauss { T := 300, occ := 2, ne := 2, tol := 1 / 10 ^ 11 } (fun _ : Fin 1 => toLex (0, 0)) (fun _ => 1)
      (fun _ => ![-1, 1]) = .ok (0, f) ∧
    searchOcc false .gauss { T := 3000, occ := 2, ne := 2, tol := 1 / 10 ^ 11 } (fun _ : Fin 1 => toLex (0, 0)) (fun _ => 1)
      (fun _ => ![-1, 1]) = .ok (0, f') ∧
    levelSum (fun _ => 1) (fun _ => ![-1, 1]) f ≤ levelSum (fun _ => 1) (fun _ => ![-1, 1]) f' := by
  have h1 := pair_search { T := 300, occ := 2, ne := 2, tol := 1 / 10 ^ 11 } rfl rfl (by norm_num)
  have h2 := pair_search { T := 3000, occ := 2, ne := 2, tol := 1 / 10 ^ 11 } rfl rfl (by norm_num)
  refine ⟨_, _, h1, h2, ?_⟩
  have := (C129_search (t := .gauss) (p := { T := 300, occ := 2, ne := 2, tol := 1 / 10 ^ 11 })
    (p' := { T := 3000, occ := 2, ne := 2, tol := 1 / 10 ^ 11 }) trivial (Function.injective_of_subsingleton _) (by norm_num) (by norm_num)
    (by norm_num) rfl rfl (by simp) (fun _ => by norm_num) h1 h2 rfl rfl).2.1
  simp only [slack, abs_zero, zero_mul, mul_zero, add_zero] at this
  nlinarith

/-- electrons that do not interact, Gauss smearing: the lowest eigenvectors make a state of least free energy -/
theorem exact_equilibrium {K : ℕ} {n b : Fin K → ℕ} {wk : Fin K → ℝ} {T mo : ℝ} (hT : 0 < T) (hm : 0 ≤ mo)
    (hw : ∀ k, 0 ≤ wk k) {H S : (k : Fin K) → Mat (n k) (n k)} (hH : ∀ k, (H k).IsHermitian)
    (hS : ∀ k, (S k).PosSemidef) {V : Orbitals n b} {e : Bands b} (hV : ∀ k, Lowest (H k) (S k) (V k) (e k)) (mu : ℝ) :
    Equilibrium (bandEnergy H wk) S .gauss T mo wk (exactElectrons .gauss T mo wk e mu) V e mu := by
  have hN : electrons wk (occs .gauss T mo e mu) = exactElectrons .gauss T mo wk e mu := by
    simp only [electrons, exactElectrons, occs, smearFns, gaussFn, idealFn]
    refine Finset.sum_congr rfl fun k _ => ?_
    congr 1
    refine Finset.sum_congr rfl fun i _ => ?_
    ring
  refine ⟨fun k => (hV k).ortho, hN, fun X' ek' mu' hX hN' => ?_⟩
  have h1 := C99_variational (t := .gauss) trivial hT hm (by simp) hw hH hS hV mu hX ek' mu'
  have h2 := C99_attained (T := T) (mo := mo) (wk := wk) hV mu
  rw [hN', sub_self, mul_zero, add_zero, ← h2] at h1
  simp only [stateFree, entropySum, cutoffError, mul_zero, zero_mul, sub_zero, neg_mul] at h1 ⊢
  linarith

/-- so both states of `C129_equilibria` exist, for every Hamiltonian, every two temperatures and every number of electrons
that fits into the bands -/
example {K : ℕ} {n b : Fin K → ℕ} {wk : Fin K → ℝ} {T T' mo ne : ℝ} (hT : 0 < T) (hTT : T < T') (hm : 0 ≤ mo)
    (hw : ∀ k, 0 ≤ wk k) {H S : (k : Fin K) → Mat (n k) (n k)} (hH : ∀ k, (H k).IsHermitian) (hS : ∀ k, (S k).PosDef)
    (hb : ∀ k, b k ≤ n k) (h0 : 0 < ne) (h1 : ne < ∑ k, wk k * (b k * mo)) :
    ∃ (X X' : Orbitals n b) (ek ek' : Bands b) (mu mu' : ℝ),
      Equilibrium (bandEnergy H wk) S .gauss T mo wk ne X ek mu ∧
      Equilibrium (bandEnergy H wk) S .gauss T' mo wk ne X' ek' mu' := by
  obtain ⟨V, e, mu, hV, rfl⟩ := C99_exact_solution_exists (t := .gauss) trivial hT wk hH hS hb h0 h1
  obtain ⟨V', e', mu', hV', hN⟩ := C99_exact_solution_exists (t := .gauss) trivial (hT.trans hTT) wk hH hS hb h0 h1
  refine ⟨V, V', e, e', mu, mu', exact_equilibrium hT hm hw hH (fun k => (hS k).posSemidef) hV mu, ?_⟩
  rw [← hN]
  exact exact_equilibrium (hT.trans hTT) hm hw hH (fun k => (hS k).posSemidef) hV' mu'

end Nlcg
