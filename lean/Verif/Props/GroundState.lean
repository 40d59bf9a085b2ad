import Verif.Proofs.GroundState

/-!
# C114: does success mean that the ground state has been found?
-/

namespace Nlcg
open Matrix Spec Real ComplexOrder

section stationary
variable {K : ℕ} {n b : Fin K → ℕ}

/-- **C114 (part).** Electrons that do not interact, Gauss smearing, pseudo-energies at least `1e-10` apart: if the
slope after a restart is zero, then the orbitals are eigenvectors of the Hamiltonian, and number of electrons and free
energy are those of the exact solution with these eigenvectors. Missing: that they are the lowest ones, which is not
true, see below; a slope that is only small. -/
theorem C114_stationary_partial {la : Lapack} (hla : LapackOk la) (p : DirParams) (ht : p.t = .gauss) (hT : 0 < p.T)
    (hkappa : 0 < p.kappa) (hmo : 0 < p.mo) (ks : (k : Fin K) → KIn (n k) (b k)) (H : (k : Fin K) → Mat (n k) (n k))
    (hk : ∀ k, Physical (ks k) (H k)) (hf : Occupied p ks)
    (hsep : ∀ k i j, i ≠ j → 1 / 10 ^ 10 ≤ |(ks k).e j - (ks k).e i|) (h0 : (restarted la p ks).1 = 0) :
    ∃ (e : Bands b) (mu : ℝ), (∀ k, H k * (ks k).X = (ks k).S * (ks k).X * diagonal fun i => (e k i : ℂ)) ∧
      electrons (fun k => (ks k).wk) (fun k => (ks k).f) = exactElectrons .gauss p.T p.mo (fun k => (ks k).wk) e mu ∧
      bandEnergy H (fun k => (ks k).wk) (fun k => (ks k).X) (fun k => (ks k).f)
          + -(kB * p.T) * ∑ k, (ks k).wk * ∑ i, (smearFns .gauss).entropy ((p.mu - (ks k).e i) / (kB * p.T)) p.mo
        = exactFreeEnergy .gauss p.T p.mo (fun k => (ks k).wk) e mu := by
  have hkT : 0 < (kB : ℝ) * p.T := mul_pos kB_pos hT
  have hf' : ∀ k i, (ks k).f i = gaussFn ((p.mu - (ks k).e i) / (kB * p.T)) p.mo := fun k i => by
    rw [hf k i, ht]; rfl
  have hpos : ∀ k i, 0 < (ks k).f i := fun k i => by
    rw [hf', gaussFn]
    have := neg_one_lt_erf ((p.mu - (ks k).e i) / (kB * p.T))
    exact mul_pos (by linarith) (by linarith)
  obtain ⟨h1, h2, d, h3⟩ := C65_zero_slope_stationary hla p (by rw [ht]; trivial) hT hkappa hmo.le ks H hk hf h0
  have hne : ∀ k i j, i ≠ j → (ks k).f i ≠ (ks k).f j := fun k i j hij h => by
    rw [hf', hf', gaussFn, gaussFn] at h
    have h4 := mul_left_cancel₀ (by positivity : p.mo / 2 ≠ 0) h
    have h5 := erf_strictMono.injective (add_left_cancel h4)
    rw [div_left_inj' hkT.ne'] at h5
    have h6 := hsep k i j hij
    rw [show (ks k).e j - (ks k).e i = 0 by linarith, abs_zero] at h6
    norm_num at h6
  have he : ∀ k, H k * (ks k).X = (ks k).S * (ks k).X * diagonal fun i => ((ks k).hii i : ℂ) := fun k => by
    obtain ⟨L, hL⟩ := h1 k
    have h4 : H k * (ks k).X = (ks k).S * (ks k).X * L := by ext i j; exact hL j (hpos k j) i
    have h5 : (ks k).Xᴴ * (H k * (ks k).X) = L := by
      have := (hk k).ortho
      rw [SOrtho] at this
      rw [h4, ← Matrix.mul_assoc, this, Matrix.one_mul]
    have h6 : L = diagonal fun i => ((ks k).hii i : ℂ) := by
      ext i j
      by_cases hij : i = j
      · subst hij
        rw [diagonal_apply_eq, (hk k).bands, h5]
      · rw [diagonal_apply_ne _ hij, ← h5]
        exact h2 k i j (hsep k i j hij) (hne k i j hij)
    rw [h4, h6]
  have hd : ∀ k i, (ks k).hii i - (ks k).e i = d := fun k i => h3 k i (by
    rw [ht]
    show 0 < gaussDelta _ _
    rw [gaussDelta]
    positivity)
  obtain ⟨g1, g2⟩ := eigen_energy (T := p.T) (mo := p.mo) (wk := fun k => (ks k).wk) (H := H) (S := fun k => (ks k).S)
    (X := fun k => (ks k).X) (e := fun k => (ks k).hii) (ek := fun k => (ks k).e) (fun k => (hk k).ortho) he p.mu d hd
  have hocc : occs .gauss p.T p.mo (fun k => (ks k).e) p.mu = fun k => (ks k).f := by
    funext k i
    rw [hf k i, ht]; rfl
  rw [hocc] at g1 g2
  exact ⟨fun k => (ks k).hii, p.mu + d, he, g1, g2⟩

end stationary

section subspace
variable {K L : ℕ} {n b : Fin K → ℕ} {n' : Fin L → ℕ} {η ξ : Type} {m : Fin L → Fin K}
  {W : (k : Fin L) → Mat (n' k) (n (m k))} {host' : Host η n' (copies b m)} {host : Host ξ n b}
  {c' : Cfg n' (copies b m)} {c : Cfg n b} {prm : NlcgParams ℝ} {fuel rank : ℕ}

/-- **C114 (what can go wrong).** Let the starting orbitals lie in a subspace (the range of `W`) that Hamiltonian,
overlap and preconditioner map to itself, for instance the states of one symmetry. Then with no choice of parameters
does a run return a free energy below that of the lowest states of the subspace, wherever the ground state is. -/
theorem C114_subspace (R : SameHost m W host' host) (hc : SameSystem m W c' c) (hs : Setting host c)
    {w : NState ℝ (SState η n' (copies b m))} {x : NState ℝ (SState ξ n b)} (h0 : SStart host c x.s)
    (hR : R.R w.s.h x.s.h) (hw : w.file = x.file ∧ w.info = x.info ∧ w.force = x.force ∧ w.trace = x.trace)
    {H : (k : Fin K) → Mat (n k) (n k)} (hn : NonInteracting host c H) (hH : ∀ k, (H k).IsHermitian)
    (ht : Monotonic c.t) (hT : 0 < c.T) (hmo : 0 ≤ c.mo) (hg : c.t = .gaussianSpline → 1 ≤ c.mo) {p : OccParams ℝ}
    {key : Fin K → Key} (hk : Function.Injective key) (ho : c.occ = searchOcc false c.t p key c.wk) {V : Orbitals n b}
    {e : Bands b} (hV : ∀ k, Lowest (H k) (c.S k) (V k) (e k)) {mu : ℝ}
    (hN : exactElectrons c.t c.T c.mo c.wk e mu = p.ne) (hmax : 1 ≤ prm.maxiter) {info : Info ℝ}
    {w' : NState ℝ (SState η n' (copies b m))} (h : solve host' c' prm fuel rank w = some (.ok info, w')) :
    ∃ vals, info.vals = some vals ∧ exactFreeEnergy c.t c.T c.mo c.wk e mu - |mu| * p.tol
      - kB * c.T * c.mo * cutoffError c.t * ∑ k, c.wk k * b k ≤ vals.F := by
  have h1 := (C76_same_run (prm := prm) (fuel := fuel) (rank := rank) R hc hR hw).1
  rw [h] at h1
  obtain ⟨⟨r, x'⟩, h2, h3⟩ := Option.map_eq_some_iff.1 h1.symm
  obtain rfl : r = .ok info := congrArg Prod.fst h3
  exact C99_returned hs h0 hn hH ht hT hmo hg hk ho hV hN hmax info h2

end subspace

/-! ## A start in an excited state -/

/-- eigenvalues -1 and 0, eigenvectors `(3/5, 4/5)` and `(4/5, -3/5)` -/
noncomputable def excitedH : (k : Fin 1) → Mat (demoN k) (demoN k) :=
  fun _ => (!![-9 / 25, -12 / 25; -12 / 25, -16 / 25] : Mat 2 2)

noncomputable def excitedHost : Host (LState demoN demoB) demoN demoB := linearHost excitedH fun _ => 1

noncomputable def excitedX : Orbitals demoN demoB := fun _ => !![(4 / 5 : ℂ); -3 / 5]

noncomputable def groundX : Orbitals demoN demoB := fun _ => !![(3 / 5 : ℂ); 4 / 5]

theorem excited_herm (k : Fin 1) : (excitedH k).IsHermitian := by
  ext i j
  fin_cases i <;> fin_cases j <;> simp [excitedH]

theorem excited_setting : Setting excitedHost (demoCfg demoSearch) :=
  ⟨linearHost_ok _ excited_herm _, flip_setting.lapack, flip_setting.overlap, flip_setting.prec, flip_setting.weights,
    flip_setting.occ⟩

theorem excited_noninteracting : NonInteracting excitedHost (demoCfg demoSearch) excitedH :=
  linearHost_noninteracting excitedH excited_herm (demoCfg demoSearch) flip_noninteracting.energy.occ

theorem excited_ortho : (!![(4 / 5 : ℂ); -3 / 5])ᴴ * !![(4 / 5 : ℂ); -3 / 5] = 1 := by
  ext i j; fin_cases i; fin_cases j; simp [mul_apply]; norm_num [map_ofNat]

theorem excited_eigen : (!![-9 / 25, -12 / 25; -12 / 25, -16 / 25] : Mat 2 2) * !![(4 / 5 : ℂ); -3 / 5] = 0 := by
  ext i j; fin_cases i <;> fin_cases j <;> simp [mul_apply] <;> norm_num

theorem excited_lowest (k : Fin 1) : Lowest (excitedH k) ((demoCfg demoSearch).S k) (groundX k) (fun _ => -1) where
  ortho := by
    show (!![(3 / 5 : ℂ); 4 / 5])ᴴ * ((1 : Mat 2 2) * !![(3 / 5 : ℂ); 4 / 5]) = 1
    rw [Matrix.one_mul]
    ext i j; fin_cases i; fin_cases j; simp [mul_apply]; norm_num [map_ofNat]
  eigen := by
    show (!![-9 / 25, -12 / 25; -12 / 25, -16 / 25] : Mat 2 2) * !![(3 / 5 : ℂ); 4 / 5]
      = (1 : Mat 2 2) * !![(3 / 5 : ℂ); 4 / 5] * diagonal fun _ => ((-1 : ℝ) : ℂ)
    rw [Matrix.one_mul]
    ext i j; fin_cases i <;> fin_cases j <;> simp [mul_apply] <;> norm_num
  above v _ i := by
    show -1 * (star v ⬝ᵥ ((1 : Mat 2 2) *ᵥ v)).re
      ≤ (star v ⬝ᵥ ((!![-9 / 25, -12 / 25; -12 / 25, -16 / 25] : Mat 2 2) *ᵥ v)).re
    rw [one_mulVec]
    change Fin 2 → ℂ at v
    simp only [dotProduct, mulVec, Fin.sum_univ_two, Pi.star_apply]
    simp
    nlinarith [sq_nonneg (4 * (v 0).re - 3 * (v 1).re), sq_nonneg (4 * (v 0).im - 3 * (v 1).im)]

theorem excited_selfConsistent : SelfConsistent excitedHost (demoCfg demoSearch) excitedX
    (occs .gauss 300 2 (fun _ _ => 0) 0) (fun _ _ => 0) 0 where
  ortho k := by
    show (!![(4 / 5 : ℂ); -3 / 5])ᴴ * ((1 : Mat 2 2) * !![(4 / 5 : ℂ); -3 / 5]) = 1
    rw [Matrix.one_mul, excited_ortho]
  occ := flip_search
  eigen := by
    rintro ⟨C, hphi, fn, ek, mu⟩ h' hC hf ⟨⟩
    obtain rfl : C = excitedX := hC
    constructor
    · funext k i
      show (((!![(4 / 5 : ℂ); -3 / 5])ᴴ * ((!![-9 / 25, -12 / 25; -12 / 25, -16 / 25] : Mat 2 2)
        * !![(4 / 5 : ℂ); -3 / 5])) i i).re = 0
      rw [excited_eigen, Matrix.mul_zero]; rfl
    · intro k
      show (!![-9 / 25, -12 / 25; -12 / 25, -16 / 25] : Mat 2 2) * !![(4 / 5 : ℂ); -3 / 5]
        = (1 : Mat 2 2) * !![(4 / 5 : ℂ); -3 / 5] * diagonal fun _ => ((0 : ℝ) : ℂ)
      rw [excited_eigen, Complex.ofReal_zero, diagonal_zero, Matrix.mul_zero]

noncomputable def excitedStart : NState ℝ (SState (LState demoN demoB) demoN demoB) :=
  ⟨⟨⟨excitedX, fun _ => 0, occs .gauss 300 2 (fun _ _ => 0) 0, fun _ _ => 0, 0⟩, 0, 0, []⟩, [], ⟨none, false⟩, false, []⟩

/-- **C114 (not true of the code).** There are a system of electrons that do not interact and a start with orthonormal
orbitals such that a run with any positive tolerance and any other parameters reports convergence, with a free energy
that is higher by one than that of the ground state with the same number of electrons. -/
theorem C114_not_ground_state : ∃ (host : Host (LState demoN demoB) demoN demoB) (c : Cfg demoN demoB)
    (H : (k : Fin 1) → Mat (demoN k) (demoN k)) (p : OccParams ℝ) (key : Fin 1 → Key) (V : Orbitals demoN demoB)
    (e : Bands demoB) (mu : ℝ) (w : NState ℝ (SState (LState demoN demoB) demoN demoB)),
    Setting host c ∧ NonInteracting host c H ∧ SStart host c w.s ∧ c.occ = searchOcc false c.t p key c.wk ∧
    (∀ k, Lowest (H k) (c.S k) (V k) (e k)) ∧ exactElectrons c.t c.T c.mo c.wk e mu = p.ne ∧
    ∀ (prm : NlcgParams ℝ), 0 < prm.tol → 1 ≤ prm.maxiter → ∀ fuel rank, ∃ info w' vals,
      solve host c prm fuel rank w = some (.ok info, w') ∧ info.converged = true ∧ info.vals = some vals ∧
      vals.F = exactFreeEnergy c.t c.T c.mo c.wk e mu + 1 := by
  refine ⟨excitedHost, demoCfg demoSearch, excitedH, { T := 300, occ := 2, ne := 1, tol := 1 / 10 ^ 11 },
    fun _ => toLex (0, 0), groundX, fun _ _ => -1, -1, excitedStart, excited_setting, excited_noninteracting,
    ⟨rfl, excited_selfConsistent.ortho⟩, rfl, excited_lowest, ?_, fun prm htol hm fuel rank => ?_⟩
  · show exactElectrons .gauss 300 2 (fun _ => 1) (fun (_ : Fin 1) (_ : Fin 1) => -1) (-1) = 1
    simp [exactElectrons, idealFn, erf_zero]
  · obtain ⟨info, w', F, S, h1, rfl, -, -, -, -, -, h, E, h', hC, hf, hE, rfl⟩ := C86_stationary_start excited_setting
      ⟨fun _ => ⟨_, rfl⟩, fun _ _ => ⟨_, rfl⟩, fun _ _ => ⟨_, rfl⟩, fun _ _ => ⟨_, rfl⟩, fun _ => ⟨_, _, rfl⟩,
        fun _ => ⟨_, rfl⟩⟩ (by norm_num [demoCfg]) excited_selfConsistent prm htol hm fuel rank excitedStart rfl rfl rfl
    refine ⟨_, w', _, h1, rfl, rfl, ?_⟩
    have hE0 : E = 0 := by
      have h2 := excited_noninteracting.energy.energy _ _ _
        ⟨by rw [hC]; exact excited_selfConsistent.ortho, fun _ _ => 0, 0, hf⟩ hE
      rw [h2, hC, bandEnergy]
      refine Finset.sum_eq_zero fun k _ => ?_
      refine mul_eq_zero_of_right _ (Finset.sum_eq_zero fun i _ => mul_eq_zero_of_right _ ?_)
      show (((!![(4 / 5 : ℂ); -3 / 5])ᴴ * ((!![-9 / 25, -12 / 25; -12 / 25, -16 / 25] : Mat 2 2)
        * !![(4 / 5 : ℂ); -3 / 5])) i i).re = 0
      rw [excited_eigen, Matrix.mul_zero]; rfl
    subst hE0
    show 0 + -(kB * 300) * ∑ _k : Fin 1, 1 * ∑ _i : Fin 1, gaussEntropy ((0 - 0) / (kB * 300)) 2
      = exactFreeEnergy .gauss 300 2 (fun _ => 1) (fun (_ : Fin 1) (_ : Fin 1) => -1) (-1) + 1
    simp [exactFreeEnergy, idealFn, idealEntropy, erf_zero, gaussEntropy]
    ring

/-! ## A start that cannot reach the ground state -/

abbrev deepN : Fin 1 → ℕ := fun _ => 3

/-- `excitedH` with a third plane wave of lower energy that does not couple -/
noncomputable def deepH : (k : Fin 1) → Mat (deepN k) (deepN k) :=
  fun _ => (!![-9 / 25, -12 / 25, 0; -12 / 25, -16 / 25, 0; 0, 0, -5] : Mat 3 3)

noncomputable def deepHost : Host (LState deepN demoB) deepN demoB := linearHost deepH fun _ => 1

noncomputable def deepCfg : Cfg deepN demoB :=
  { la := refLapack, t := .gauss, T := 300, kappa := (demoCfg demoSearch).kappa, mo := 2, wk := fun _ => 1,
    S := fun _ => 1, P := fun _ => 1, occ := (demoCfg demoSearch).occ, junk := fun _ => 0 }

/-- the first two plane waves -/
def firstTwo : (k : Fin 1) → Mat (deepN k) (demoN k) := fun _ => (!![1, 0; 0, 1; 0, 0] : Mat 3 2)

theorem two_isometry : (!![1, 0; 0, 1; 0, 0] : Mat 3 2)ᴴ * (!![1, 0; 0, 1; 0, 0] : Mat 3 2) = 1 := by
  ext i j
  fin_cases i <;> fin_cases j <;> simp [mul_apply, Fin.sum_univ_three]

theorem two_closed : (!![-9 / 25, -12 / 25, 0; -12 / 25, -16 / 25, 0; 0, 0, -5] : Mat 3 3) * (!![1, 0; 0, 1; 0, 0] : Mat 3 2)
    = (!![1, 0; 0, 1; 0, 0] : Mat 3 2) * (!![-9 / 25, -12 / 25; -12 / 25, -16 / 25] : Mat 2 2) := by
  ext i j
  fin_cases i <;> fin_cases j <;> simp [mul_apply, Fin.sum_univ_three, Fin.sum_univ_two]

theorem deep_system : SameSystem (n := demoN) (b := demoB) id firstTwo deepCfg (demoCfg demoSearch) where
  isometry _ := two_isometry
  weights k := by
    have : (Finset.univ.filter fun l : Fin 1 => id l = k) = {k} := by ext l; simp only [Finset.mem_filter, Finset.mem_univ, true_and, id, Finset.mem_singleton]
    rw [this, Finset.sum_singleton]; rfl
  nonzero := ⟨fun _ => one_ne_zero, fun _ => one_ne_zero⟩
  S _ := (Matrix.one_mul (!![1, 0; 0, 1; 0, 0] : Mat 3 2)).trans (Matrix.mul_one (!![1, 0; 0, 1; 0, 0] : Mat 3 2)).symm
  P _ := (Matrix.one_mul (!![1, 0; 0, 1; 0, 0] : Mat 3 2)).trans (Matrix.mul_one (!![1, 0; 0, 1; 0, 0] : Mat 3 2)).symm
  occ x := by
    show (demoCfg demoSearch).occ x = _
    cases (demoCfg demoSearch).occ x <;> rfl
  la := rfl
  t := rfl
  T := rfl
  kappa := rfl
  mo := rfl

noncomputable def deepStart : NState ℝ (SState (LState deepN demoB) deepN demoB) :=
  ⟨⟨⟨fun k => firstTwo k * (demoStart 5).s.h.C k, fun k => firstTwo k * (demoStart 5).s.h.hphi k,
    (demoStart 5).s.h.fn, (demoStart 5).s.h.ek, 0⟩, 0, 0, []⟩, (demoStart 5).file, (demoStart 5).info,
    (demoStart 5).force, (demoStart 5).trace⟩

/-- a start with the first plane wave: no run returns less than the exact free energy for the level -1, although
there is a level -5 -/
example (prm : NlcgParams ℝ) (hm : 1 ≤ prm.maxiter) (fuel rank : ℕ) (info : Info ℝ)
    (w' : NState ℝ (SState (LState deepN demoB) deepN demoB))
    (h : solve deepHost deepCfg prm fuel rank deepStart = some (.ok info, w')) :
    ∃ vals, info.vals = some vals ∧
      exactFreeEnergy .gauss 300 2 (fun _ => 1) (fun (_ : Fin 1) (_ : Fin 1) => -1) (-1) - 1 / 10 ^ 11 ≤ vals.F := by
  obtain ⟨vals, h1, h2⟩ := C114_subspace (W := firstTwo) (linear_closed (fun _ => two_isometry) fun _ => two_closed) deep_system
    excited_setting (w := deepStart) (x := demoStart 5) ⟨rfl, flip_start.2⟩ ⟨rfl, rfl, rfl, rfl⟩ ⟨rfl, rfl, rfl, rfl⟩
    excited_noninteracting excited_herm trivial (by norm_num [demoCfg]) (by norm_num [demoCfg]) (by simp [demoCfg])
    (p := { T := 300, occ := 2, ne := 1, tol := 1 / 10 ^ 11 }) (key := fun _ => toLex (0, 0))
    (fun a b _ => Subsingleton.elim a b) rfl excited_lowest (mu := -1)
    (by
      show exactElectrons .gauss 300 2 (fun _ => 1) (fun (_ : Fin 1) (_ : Fin 1) => -1) (-1) = 1
      simp [exactElectrons, idealFn, erf_zero]) hm h
  refine ⟨vals, h1, ?_⟩
  have h3 : cutoffError (demoCfg demoSearch).t = 0 := rfl
  rw [h3, mul_zero, zero_mul, sub_zero, abs_neg, abs_one, one_mul] at h2
  exact h2

/-! ## A stationary point -/

noncomputable def ladderE : Fin 2 → ℝ := ![1, 2]

/-- two bands at their own energies -/
noncomputable def ladderIn : (k : Fin 1) → KIn 2 2 := fun _ =>
  { X := 1, hx := diagonal fun i => (ladderE i : ℂ), e := ladderE
    f := fun i => (smearFns .gauss).fn ((1 - ladderE i) / (kB * 300)) 2, hii := ladderE, S := 1, P := 1, wk := 1 }

noncomputable def ladderP : DirParams := { t := .gauss, T := 300, kappa := 3 / 10, mo := 2, mu := 1 }

theorem ladder_slope : (restarted refLapack ladderP ladderIn).1 = 0 := by
  show ∑ k, (execAll refLapack ladderP ladderIn k).fr = 0
  refine Finset.sum_eq_zero fun k _ => (execSpc_eigen refLapack_ok _ _ _ (ladderIn k) ?_ PosDef.one one_ne_zero ?_).2.2
  · simp [ladderIn, SOrtho]
  · simp [ladderIn]

example : ∃ (e : Bands fun _ : Fin 1 => 2) (mu : ℝ),
    (∀ k, (diagonal fun i => (ladderE i : ℂ)) * (ladderIn k).X
      = (ladderIn k).S * (ladderIn k).X * diagonal fun i => (e k i : ℂ)) := by
  obtain ⟨e, mu, h, -⟩ := C114_stationary_partial refLapack_ok ladderP rfl (by norm_num [ladderP]) (by norm_num [ladderP])
    (by norm_num [ladderP]) ladderIn (fun _ => diagonal fun i => (ladderE i : ℂ))
    (fun k => ⟨by
        refine isHermitian_diagonal_of_self_adjoint _ ?_
        funext i
        simp, by simp [ladderIn], fun i => by simp [ladderIn], by simp [ladderIn, SOrtho], PosDef.one, one_pos⟩)
    (fun k i => rfl)
    (fun k i j hij => by
      show 1 / 10 ^ 10 ≤ |ladderE j - ladderE i|
      fin_cases i <;> fin_cases j <;> simp [ladderE] at hij ⊢ <;> norm_num) ladder_slope
  exact ⟨e, mu, h⟩

end Nlcg
