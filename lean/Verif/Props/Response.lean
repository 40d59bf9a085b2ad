import Verif.Props.CallAgain
import Verif.Props.EntropyPeak
import Verif.Props.SelfConsistent
import Verif.Props.Variational
import Verif.Spec.Response
import Mathlib.Analysis.Calculus.LocalExtr.Basic

/-!
# C136: expectation values are derivatives of the free energy
-/

namespace Nlcg
open Matrix Spec Real ComplexOrder

section
variable {K : ℕ} {n b : Fin K → ℕ} {η η' : Type} {host : Host η n b} {host' : Host η' n b} {c c' : Cfg n b}
  {E E' V : Orbitals n b → Bands b → ℝ} {prm prm' : NlcgParams ℝ} {fuel rank fuel' rank' : ℕ}
  {w w1 : NState ℝ (SState η n b)} {v v1 : NState ℝ (SState η' n b)} {info info' : Info ℝ}
  {X X' : Orbitals n b} {f f' : Bands b} {F F' δ δ' : ℝ} {h : η} {h' : η'}

/-- **C136 (the state behind the number).** The free energy that a run returns is the free energy of a state; after
success this is the state in which the run leaves the host. -/
theorem C136_state (hs : Setting host c) (hE : EnergyOf host c E) (hcl : ∀ ek, (c.occ ek).Clean)
    (h0 : SStart host c w.s) (hm : 1 ≤ prm.maxiter)
    (hrun : solve host c prm fuel rank w = some (.ok info, w1)) :
    ∃ F X f, ReturnedState host c E info w1.s.h F X f := by
  obtain ⟨vals, slope, e1, -, -, -, e5, e6, -⟩ :=
    nlcg_record _ (solver_clean host c hcl) (solver_quiet host c) prm fuel rank w w1 info hm hrun
  have gen : ∀ (X : Orbitals n b) ek mu e h1 h2, (∀ k, SOrtho (c.S k) (X k)) →
      c.occ ek = .ok (mu, occs c.t c.T c.mo ek mu) → host.C h1 = X → host.fn h1 = occs c.t c.T c.mo ek mu →
      host.energy h1 = (some e, h2) → ∀ S,
      S = -(kB * c.T) * ∑ k, c.wk k * ∑ j, (smearFns c.t).entropy ((mu - ek k j) / (kB * c.T)) c.mo →
      vals.F = e + S → vals.F = stateFree E c.t c.T c.mo c.wk X ek mu := by
    intro X ek mu e h1 h2 hX ho hC hf he S hS hF
    have := hE.energy h1 e h2 (by rw [hC, hf]; exact ⟨hX, _, _, rfl⟩) he
    rw [hC, hf] at this
    rw [hF, this, hS, stateFree, entropySum]
    ring
  by_cases hcv : info.converged = true
  · obtain ⟨pt, dir, sl, ⟨hJ, hS, k1, e, k2, he, hC, hf, hF⟩, -⟩ :=
      (((solver_energy_rule hs).run hrun h0).2.2 info rfl).2 hcv
    obtain ⟨hat, hX, hocc⟩ := hJ.at_
    refine ⟨vals.F, pt.X, _, ⟨vals, e1, rfl⟩, ⟨pt.ek, pt.mu, ⟨hX, hocc⟩, rfl, ?_⟩, fun _ => ⟨hat.C, hat.fn⟩⟩
    refine gen _ _ _ e k1 k2 hX hocc hC hf he _ (hS.trans (entropyTerm_ofFn _ _ _ _ _ _)) ((e6 hcv).2.1.trans hF)
  · obtain ⟨X, ek, mu, hX, hocc, hS, k1, e, k2, hC, hf, he, hF⟩ := C69_reported_energy hs h0 hrun _ _ _ _ (mem_reports.1 e5)
    exact ⟨vals.F, X, _, ⟨vals, e1, rfl⟩, ⟨ek, mu, ⟨hX, hocc⟩, rfl, gen X ek mu e k1 k2 hX hocc hC hf he _ hS hF⟩,
      fun h => absurd h hcv⟩

theorem Spec.SameStates.isState (hc : SameStates c c') {ek : Bands b} {mu : ℝ} :
    IsState c' X ek mu ↔ IsState c X ek mu := by
  obtain ⟨h1, h2, h3, h4, h5, h6⟩ := hc
  constructor
  · rintro ⟨a, o⟩; exact ⟨h5 ▸ a, by rw [← h6, ← h1, ← h2, ← h3]; exact o⟩
  · rintro ⟨a, o⟩; exact ⟨h5.symm ▸ a, by rw [h6, h1, h2, h3]; exact o⟩

/-- the functional of one run, at the state of another -/
theorem change_functional (hc : SameStates c c') (r : ReturnedState host c E info h F X f)
    (hl : LowestUpTo c' E' δ F') : F' ≤ F + (E' X f - E X f) + δ := by
  obtain ⟨ek, mu, hst, rfl, rfl⟩ := r.state
  have := hl X ek mu (hc.isState.2 hst)
  rw [hc.t, hc.T, hc.mo, hc.wk] at this
  simp only [stateFree] at this ⊢
  linarith

theorem Spec.SameStates.symm (hc : SameStates c c') : SameStates c' c :=
  ⟨hc.t.symm, hc.T.symm, hc.mo.symm, hc.wk.symm, hc.S.symm, hc.occ.symm⟩

/-- **C136.** Two runs with different energy functionals. The difference of the returned free energies lies between
the change of the energy at the state of the second run and that at the state of the first run, up to the distances
of the runs from their minima. -/
theorem C136_difference (hc : SameStates c c') (r : ReturnedState host c E info h F X f)
    (r' : ReturnedState host' c' E' info' h' F' X' f') (hl : LowestUpTo c E δ F) (hl' : LowestUpTo c' E' δ' F') :
    E' X' f' - E X' f' - δ ≤ F' - F ∧ F' - F ≤ E' X f - E X f + δ' := by
  have a := change_functional hc r hl'
  have a' := change_functional hc.symm r' hl
  constructor <;> linarith

/-- **C136.** Energies `E + l V`: the difference quotient of the returned free energies lies between the expectation
values of `V` at the two ends. -/
theorem C136_quotient (hc : SameStates c c') {l l' : ℝ} (hl : l < l')
    (r : ReturnedState host c (fun X f => E X f + l * V X f) info h F X f)
    (r' : ReturnedState host' c' (fun X f => E X f + l' * V X f) info' h' F' X' f')
    (hm : LowestUpTo c (fun X f => E X f + l * V X f) δ F)
    (hm' : LowestUpTo c' (fun X f => E X f + l' * V X f) δ' F') :
    V X' f' - δ / (l' - l) ≤ (F' - F) / (l' - l) ∧ (F' - F) / (l' - l) ≤ V X f + δ' / (l' - l) := by
  have hd : 0 < l' - l := sub_pos.2 hl
  obtain ⟨a, a'⟩ := C136_difference hc r r' hm hm'
  constructor
  · rw [le_div_iff₀ hd, sub_mul, div_mul_cancel₀ _ hd.ne']; linarith
  · rw [div_le_iff₀ hd, add_mul, div_mul_cancel₀ _ hd.ne']; linarith

/-- **C136.** The response has a sign: raising the price of `V` never raises the expectation value of `V`. -/
theorem C136_sign (hc : SameStates c c') {l l' : ℝ} (hl : l < l')
    (r : ReturnedState host c (fun X f => E X f + l * V X f) info h F X f)
    (r' : ReturnedState host' c' (fun X f => E X f + l' * V X f) info' h' F' X' f')
    (hm : LowestUpTo c (fun X f => E X f + l * V X f) δ F)
    (hm' : LowestUpTo c' (fun X f => E X f + l' * V X f) δ' F') :
    V X' f' ≤ V X f + (δ + δ') / (l' - l) := by
  obtain ⟨a, a'⟩ := C136_quotient hc hl r r' hm hm'
  rw [add_div]
  linarith

/-- **C136.** Let `G l` be the least free energy for `E + l V`. If a run for `l` has found it, then the expectation
value of `V` at the state of the run is the derivative of `G`. -/
theorem C136_derivative {l d : ℝ} {G : ℝ → ℝ} (hG : ∀ a, LowestUpTo c (fun X f => E X f + a * V X f) 0 (G a))
    (r : ReturnedState host c (fun X f => E X f + l * V X f) info h (G l) X f) (hd : HasDerivAt G d l) : d = V X f := by
  have hle : ∀ a, G a - a * V X f ≤ G l - l * V X f := fun a => by
    have := change_functional ⟨rfl, rfl, rfl, rfl, rfl, rfl⟩ r (hG a)
    linarith
  have hmax : IsLocalMax (fun a => G a - a * V X f) l := Filter.Eventually.of_forall hle
  have h1 : HasDerivAt (fun a => G a - a * V X f) (d - 1 * V X f) l := hd.sub ((hasDerivAt_id l).mul_const _)
  have := hmax.hasDerivAt_eq_zero h1
  linarith

/-- **C136 (electrons that do not interact).** A run with one Hamiltonian bounds the exact free energy of every other
Hamiltonian from above. -/
theorem C136_other_hamiltonian (hs : Setting host c) {H H' : (k : Fin K) → Mat (n k) (n k)}
    (hH : ∀ k, (H' k).IsHermitian) (ht : Monotonic c.t) (hT : 0 < c.T) (hm : 0 ≤ c.mo)
    (hg : c.t = .gaussianSpline → 1 ≤ c.mo) {p : OccParams ℝ} {key : Fin K → Key} (hk : Function.Injective key)
    (hc : c.occ = searchOcc false c.t p key c.wk) {U : Orbitals n b} {e : Bands b}
    (hU : ∀ k, Lowest (H' k) (c.S k) (U k) (e k)) {mu : ℝ} (hN : exactElectrons c.t c.T c.mo c.wk e mu = p.ne)
    (r : ReturnedState host c (bandEnergy H c.wk) info h F X f) :
    exactFreeEnergy c.t c.T c.mo c.wk e mu ≤ F + bandEnergy (fun k => H' k - H k) c.wk X f
      + (|mu| * p.tol + kB * c.T * c.mo * cutoffError c.t * ∑ k, c.wk k * b k) := by
  obtain ⟨ek, nu, ⟨hX, hocc⟩, rfl, rfl⟩ := r.state
  have key := C99_variational ht hT hm hg (fun k => (hs.weights k).le) hH hs.overlap hU mu hX ek nu
  rw [hc] at hocc
  have hch := (searchOcc_charge hk hocc).1
  rw [hN] at key
  have h3 : -(|mu| * p.tol) ≤ mu * (electrons c.wk (occs c.t c.T c.mo ek nu) - p.ne) := by
    have h4 : |mu * (electrons c.wk (occs c.t c.T c.mo ek nu) - p.ne)| ≤ |mu| * p.tol := by
      rw [abs_mul, abs_sub_comm]
      exact mul_le_mul_of_nonneg_left hch.le (abs_nonneg _)
    exact (abs_le.1 h4).1
  have hb : bandEnergy (fun k => H' k - H k) c.wk X (occs c.t c.T c.mo ek nu)
      = bandEnergy H' c.wk X (occs c.t c.T c.mo ek nu) - bandEnergy H c.wk X (occs c.t c.T c.mo ek nu) := by
    simp only [bandEnergy, levels, Matrix.sub_mul, Matrix.mul_sub, Matrix.sub_apply, Complex.sub_re, mul_sub,
      Finset.sum_sub_distrib]
  rw [hb]
  simp only [stateFree, entropySum]
  linarith

/-- energies bounded below: some distance from the minimum exists -/
theorem lowest_of_bounded (hT : 0 ≤ c.T) (hmo : 0 ≤ c.mo) (hgs : c.t = .gaussianSpline → 1 ≤ c.mo)
    (hw : ∀ k, 0 ≤ c.wk k) {B : ℝ} (hB : ∀ X f, Admissible c X f → B ≤ E X f) (F : ℝ) : ∃ δ, LowestUpTo c E δ F := by
  refine ⟨F - B + kB * c.T * (∑ k, c.wk k * ∑ _j : Fin (b k), c.mo * peak c.t), fun X ek mu hst => ?_⟩
  have h1 := hB X _ ⟨hst.ortho, ek, mu, rfl⟩
  have h2 : entropySum c.t c.T c.mo c.wk ek mu ≤ ∑ k, c.wk k * ∑ _j : Fin (b k), c.mo * peak c.t :=
    Finset.sum_le_sum fun k _ => mul_le_mul_of_nonneg_left
      (Finset.sum_le_sum fun j _ => (le_abs_self _).trans (C108_state c.t _ _ hmo hgs)) (hw k)
  have h3 := mul_le_mul_of_nonneg_left h2 (mul_nonneg kB_pos.le hT)
  simp only [stateFree]
  linarith

end

/-! ## Two runs

The Hamiltonian of the other examples with a potential `l` on the first plane wave, for `l = 0` and `l = 1`. -/

noncomputable def fieldV : (k : Fin 1) → Mat (demoN k) (demoN k) := fun _ => !![1, 0; 0, 0]

theorem fieldV_psd (k : Fin 1) : (fieldV k).PosSemidef := by
  have : fieldV k = (!![1, 0; 0, 0] : Mat 2 2)ᴴ * !![1, 0; 0, 0] := by
    ext i j
    fin_cases i <;> fin_cases j <;> simp [fieldV, mul_apply, Fin.sum_univ_two]
  rw [this]; exact posSemidef_conjTranspose_mul_self _

theorem linear_returns {H : (k : Fin 1) → Mat (demoN k) (demoN k)} (hH : ∀ k, (H k).PosSemidef) (prm : NlcgParams ℝ)
    (htol : 0 < prm.tol) (htau : prm.tau < 1) (hr : prm.restart ≠ 0) (hm : 1 ≤ prm.maxiter) :
    ∃ fuel info w' F X f, solve (linearHost H fun _ => 1) (demoCfg demoOcc) prm fuel 0 (demoStart 5) = some (.ok info, w') ∧
      ReturnedState (linearHost H fun _ => 1) (demoCfg demoOcc) (linearEnergy H fun _ => 1) info w'.s.h F X f ∧
      ∃ δ, LowestUpTo (demoCfg demoOcc) (linearEnergy H fun _ => 1) δ F := by
  have hs : Setting (linearHost H fun _ => 1) (demoCfg demoOcc) :=
    ⟨linearHost_ok _ (fun k => (hH k).isHermitian) _, refLapack_ok, fun _ => PosSemidef.one, fun _ => PosDef.one,
      fun _ => one_pos, by rintro ek mu f ⟨⟩; rfl⟩
  have hE : EnergyOf (linearHost H fun _ => 1) (demoCfg demoOcc) (linearEnergy H fun _ => 1) :=
    linearHost_energy H (demoCfg demoOcc) (by rintro ek ek' mu mu' f f' - ⟨⟩ ⟨⟩; rfl)
  have h0 : SStart (linearHost H fun _ => 1) (demoCfg demoOcc) (demoStart 5).s := demo_start _ _ _
  have hb : ∀ X f, Admissible (demoCfg demoOcc) X f → 0 ≤ linearEnergy H (fun _ => 1) X f := by
    rintro X f ⟨-, e, mu, rfl⟩
    exact linearEnergy_nonneg H hH _ (fun _ => zero_le_one) X _ fun k i =>
      (C06_occupation_bounds .gauss (by simp [Monotonic]) _ 2 (by norm_num)).1
  obtain ⟨N, hN⟩ := C30_run_ends_solver (w := demoStart 5) (prm := prm) hs hE h0 (by norm_num [demoCfg]) 0 hb htol
  rcases hq : solve (linearHost H fun _ => 1) (demoCfg demoOcc) prm N 0 (demoStart 5) with _ | ⟨o, w'⟩
  · exact absurd hq (hN N le_rfl 0)
  · obtain ⟨info, rfl⟩ := C66_returns_normally hs ⟨fun _ => ⟨_, rfl⟩, fun _ _ => ⟨_, rfl⟩, fun _ _ => ⟨_, rfl⟩,
      fun _ _ => ⟨_, rfl⟩, fun _ => ⟨_, _, rfl⟩, fun _ => ⟨_, rfl⟩⟩ refLapack_total (fun e => ⟨_, _, rfl⟩)
      (by norm_num [demoCfg]) htau hr h0 hq
    obtain ⟨F, X, f, r⟩ := C136_state hs hE (fun _ => by simp [demoCfg, demoOcc, Res.Clean]) h0 hm hq
    exact ⟨N, info, w', F, X, f, hq, r, lowest_of_bounded (by norm_num [demoCfg]) (by norm_num [demoCfg])
      (by simp [demoCfg]) (fun _ => zero_le_one) hb F⟩

/-- the potential on the first plane wave pushes electrons away from it -/
example (prm : NlcgParams ℝ) (htol : 0 < prm.tol) (htau : prm.tau < 1) (hr : prm.restart ≠ 0) (hm : 1 ≤ prm.maxiter) :
    ∃ fuel fuel' info info' w w' F F' X X' f f' δ δ',
      solve (linearHost demoH fun _ => 1) (demoCfg demoOcc) prm fuel 0 (demoStart 5) = some (.ok info, w) ∧
      solve (linearHost (fun k => demoH k + fieldV k) fun _ => 1) (demoCfg demoOcc) prm fuel' 0 (demoStart 5)
        = some (.ok info', w') ∧
      ReturnedState demoHost (demoCfg demoOcc) (linearEnergy demoH fun _ => 1) info w.s.h F X f ∧
      ReturnedState (linearHost (fun k => demoH k + fieldV k) fun _ => 1) (demoCfg demoOcc)
        (linearEnergy (fun k => demoH k + fieldV k) fun _ => 1) info' w'.s.h F' X' f' ∧
      LowestUpTo (demoCfg demoOcc) (linearEnergy demoH fun _ => 1) δ F ∧
      LowestUpTo (demoCfg demoOcc) (linearEnergy (fun k => demoH k + fieldV k) fun _ => 1) δ' F' ∧
      linearEnergy fieldV (fun _ => 1) X' f' - δ ≤ F' - F ∧
      F' - F ≤ linearEnergy fieldV (fun _ => 1) X f + δ' := by
  obtain ⟨fuel, info, w, F, X, f, q, r, δ, hl⟩ := linear_returns demoH_psd prm htol htau hr hm
  obtain ⟨fuel', info', w', F', X', f', q', r', δ', hl'⟩ :=
    linear_returns (fun k => (demoH_psd k).add (fieldV_psd k)) prm htol htau hr hm
  have key := C136_difference ⟨rfl, rfl, rfl, rfl, rfl, rfl⟩ r r' hl hl'
  have hv : ∀ X f, linearEnergy (b := demoB) (fun k => demoH k + fieldV k) (fun _ => 1) X f - linearEnergy demoH (fun _ => 1) X f
      = linearEnergy fieldV (fun _ => 1) X f := fun X f => by
    simp only [linearEnergy, Matrix.add_mul, trace_add, Complex.add_re, mul_add, Finset.sum_add_distrib]
    ring
  rw [hv, hv] at key
  exact ⟨fuel, fuel', info, info', w, w', F, F', X, X', f, f', δ, δ', q, q', r, r', hl, hl', key.1, key.2⟩

/-- a run bounds the exact free energy for the Hamiltonian of the other examples -/
example : ∃ (prm : NlcgParams ℝ) (info : Info ℝ) (w' : _) (F mu : ℝ) (X U : Orbitals demoN demoB) (f e : Bands demoB),
    solve flipHost (demoCfg demoSearch) prm 0 0 (demoStart 5) = some (.ok info, w') ∧
    ReturnedState flipHost (demoCfg demoSearch) (bandEnergy flipH (demoCfg demoSearch).wk) info w'.s.h F X f ∧
    (∀ k, Lowest (demoH k) ((demoCfg demoSearch).S k) (U k) (e k)) ∧
    exactFreeEnergy .gauss 300 2 (demoCfg demoSearch).wk e mu
      ≤ F + bandEnergy (fun k => demoH k - flipH k) (demoCfg demoSearch).wk X f + |mu| * (1 / 10 ^ 11) := by
  obtain ⟨U, e, mu, hU, hmu⟩ := C99_exact_solution_exists (n := demoN) (b := demoB) (t := (demoCfg demoSearch).t) trivial
    (T := (demoCfg demoSearch).T) (mo := (demoCfg demoSearch).mo) (by norm_num [demoCfg]) (demoCfg demoSearch).wk
    (fun k => (demoH_psd k).isHermitian) (S := (demoCfg demoSearch).S) (fun _ => PosDef.one) (fun _ => by norm_num) (ne := 1)
    (by norm_num) (by norm_num [demoCfg])
  obtain ⟨prm, info, w', hm, q1⟩ := flip_run
  obtain ⟨F, X, f, r⟩ := C136_state flip_setting flip_noninteracting.energy (fun _ => searchOcc_clean _ _ _ _ _ _)
    flip_start hm q1
  have hb := C136_other_hamiltonian flip_setting (fun k => (demoH_psd k).isHermitian) trivial
    (by norm_num [demoCfg]) (by norm_num [demoCfg]) (by simp [demoCfg])
    (p := { T := 300, occ := 2, ne := 1, tol := 1 / 10 ^ 11 }) (key := fun _ => toLex (0, 0))
    (fun a b _ => Subsingleton.elim a b) rfl hU (mu := mu) hmu r
  refine ⟨prm, info, w', F, mu, X, U, f, e, q1, r, hU, ?_⟩
  have : cutoffError (demoCfg demoSearch).t = 0 := rfl
  rw [this, mul_zero, zero_mul, add_zero] at hb
  exact hb

/-! ## A derivative

The Hamiltonian `eigH`, whose lowest level is 1, and the energy `a` per electron. -/

theorem eig_lowest (a : ℝ) (k : Fin 1) :
    Lowest (eigH k + (a : ℂ) • 1) (1 : Mat 2 2) (eigX k) (fun _ : Fin 1 => 1 + a) := by
  have hX : (!![(3 / 5 : ℂ); 4 / 5])ᴴ * !![(3 / 5 : ℂ); 4 / 5] = 1 := by
    ext i j; fin_cases i; fin_cases j; simp [mul_apply]; norm_num [map_ofNat]
  have hH : (!![41 / 25, -12 / 25; -12 / 25, 34 / 25] : Mat 2 2) * !![(3 / 5 : ℂ); 4 / 5] = !![(3 / 5 : ℂ); 4 / 5] := by
    ext i j; fin_cases i <;> fin_cases j <;> simp [mul_apply] <;> norm_num
  refine ⟨?_, ?_, fun v _ _ => ?_⟩
  · show (!![(3 / 5 : ℂ); 4 / 5])ᴴ * ((1 : Mat 2 2) * !![(3 / 5 : ℂ); 4 / 5]) = 1
    rw [Matrix.one_mul, hX]
  · show ((!![41 / 25, -12 / 25; -12 / 25, 34 / 25] : Mat 2 2) + (a : ℂ) • 1) * !![(3 / 5 : ℂ); 4 / 5]
        = (1 : Mat 2 2) * !![(3 / 5 : ℂ); 4 / 5] * diagonal fun _ => ((1 + a : ℝ) : ℂ)
    rw [Matrix.add_mul, hH, Matrix.one_mul]
    ext i j; fin_cases i <;> fin_cases j <;> simp <;> ring
  · have h1 : eigH k = 1 + (!![4 / 5, -3 / 5] : Matrix (Fin 1) (Fin 2) ℂ)ᴴ * (!![4 / 5, -3 / 5] : Matrix (Fin 1) (Fin 2) ℂ) := by
      ext i j
      fin_cases i <;> fin_cases j <;> simp [eigH, mul_apply] <;> norm_num [map_ofNat]
    have h2 := (posSemidef_conjTranspose_mul_self (!![4 / 5, -3 / 5] : Matrix (Fin 1) (Fin 2) ℂ)).dotProduct_mulVec_nonneg v
    have h3 := (Complex.le_def.1 h2).1
    rw [h1]
    simp only [expectation, add_mulVec, smul_mulVec, one_mulVec, dotProduct_add, dotProduct_smul, Complex.add_re, smul_eq_mul,
      Complex.mul_re, Complex.ofReal_re, Complex.ofReal_im, zero_mul, sub_zero, Complex.zero_re] at h3 ⊢
    linarith

noncomputable def eigG (a : ℝ) : ℝ := exactFreeEnergy (b := demoB) .gauss 300 2 (fun _ => 1) (fun _ _ => 1 + a) 0

theorem bandEnergy_count {X : Orbitals demoN demoB} (hX : ∀ k, SOrtho ((eigCfg .gauss).S k) (X k)) (f : Bands demoB) :
    bandEnergy (fun _ => 1) (fun _ => 1) X f = electrons (fun _ => 1) f := by
  have : ∀ k i, levels (fun _ => 1) X k i = 1 := fun k i => by
    have := hX k
    simp only [SOrtho] at this
    show (((X k)ᴴ * ((1 : Mat 2 2) * X k)) i i).re = 1
    rw [show (X k)ᴴ * ((1 : Mat 2 2) * X k) = 1 from this]
    simp
  simp only [bandEnergy, electrons, this, mul_one]

theorem eigG_least (a : ℝ) : LowestUpTo (eigCfg .gauss)
    (fun X f => bandEnergy eigH (fun _ => 1) X f + a * electrons (fun _ => 1) f) 0 (eigG a) := by
  intro X ek mu hst
  have key := C99_variational (t := .gauss) trivial (T := 300) (mo := 2) (by norm_num) (by norm_num) (by simp)
    (wk := fun _ : Fin 1 => 1) (fun _ => zero_le_one) (H := fun k => eigH k + (a : ℂ) • 1) (S := fun _ => 1)
    (fun k => by ext i j; fin_cases i <;> fin_cases j <;> simp [eigH]) (fun _ => PosSemidef.one) (V := eigX)
    (e := fun _ _ => 1 + a) (eig_lowest a) 0 hst.ortho ek mu
  have hb : bandEnergy (fun k => eigH k + (a : ℂ) • 1) (fun _ => 1) X (occs .gauss 300 2 ek mu)
      = bandEnergy eigH (fun _ => 1) X (occs .gauss 300 2 ek mu) + a * electrons (fun _ => 1) (occs .gauss 300 2 ek mu) := by
    rw [← bandEnergy_count hst.ortho]
    simp only [bandEnergy, levels, Matrix.add_mul, Matrix.mul_add, Matrix.smul_mul, Matrix.mul_smul, Matrix.add_apply,
      Matrix.smul_apply, Complex.add_re, smul_eq_mul, Complex.mul_re, Complex.ofReal_re, Complex.ofReal_im, zero_mul,
      sub_zero, mul_add, Finset.sum_add_distrib, Finset.mul_sum]
    congr 1
    refine Finset.sum_congr rfl fun k _ => Finset.sum_congr rfl fun i _ => ?_
    ring
  have hc : cutoffError .gauss = 0 := rfl
  rw [hb, hc] at key
  simp only [stateFree, entropySum, eigG]
  simp only [eigCfg]
  linarith

theorem eigG_deriv (a : ℝ) : HasDerivAt eigG (gaussFn ((0 - (1 + a)) / (kB * 300)) 2) a := by
  have hk : (kB * 300 : ℝ) ≠ 0 := (mul_pos kB_pos (by norm_num : (0 : ℝ) < 300)).ne'
  have e : eigG = fun a => (1 + a) * gaussFn ((0 - (1 + a)) / (kB * 300)) 2
      - kB * 300 * gaussEntropy ((0 - (1 + a)) / (kB * 300)) 2 := by
    funext a
    simp only [eigG, exactFreeEnergy, Fin.sum_univ_one, idealFn, idealEntropy, gaussFn, gaussEntropy]
    ring_nf
  rw [e]
  have hy : HasDerivAt (fun a : ℝ => (0 - (1 + a)) / (kB * 300)) (-1 / (kB * 300)) a :=
    (((hasDerivAt_id a).const_add 1).const_sub 0).div_const _
  have h1 := (hasDerivAt_gaussFn ((0 - (1 + a)) / (kB * 300)) 2).comp a hy
  have h2 := (hasDerivAt_gaussEntropy ((0 - (1 + a)) / (kB * 300)) 2).comp a hy
  have h0 : HasDerivAt (fun a : ℝ => 1 + a) 1 a := (hasDerivAt_id a).const_add 1
  have h4 := h2.const_mul (kB * 300 : ℝ)
  have h3 := (h0.mul h1).sub h4
  refine h3.congr_deriv ?_
  simp only [Function.comp, id]
  field_simp
  ring

/-- the run finds the minimum, and the number of electrons at its end is the derivative -/
example (prm : NlcgParams ℝ) (htol : 0 < prm.tol) (hm : 1 ≤ prm.maxiter) (w : NState ℝ (SState (LState demoN demoB) demoN demoB))
    (hcalls : w.s.calls = []) (hC : w.s.h.C = eigX) (hf : w.s.h.fn = occs .gauss 300 2 (fun _ _ => 1) 0) :
    ∃ info w' X f, solve (linearHost (b := demoB) eigH fun _ => 1) (eigCfg .gauss) prm 0 0 w = some (.ok info, w') ∧
      ReturnedState (linearHost (b := demoB) eigH fun _ => 1) (eigCfg .gauss)
        (fun X f => bandEnergy eigH (fun _ => 1) X f + 0 * electrons (fun _ => 1) f) info w'.s.h (eigG 0) X f ∧
      HasDerivAt eigG (electrons (fun _ => 1) f) 0 := by
  obtain ⟨hs, hsc⟩ := eig_selfConsistent .gauss
  obtain ⟨info, w', F, S, q, rfl, -, -, c1, c2, -, h, E, h', d1, d2, d3, d4⟩ := C86_stationary_start hs
    ⟨fun _ => ⟨_, rfl⟩, fun _ _ => ⟨_, rfl⟩, fun _ _ => ⟨_, rfl⟩, fun _ _ => ⟨_, rfl⟩, fun _ => ⟨_, _, rfl⟩,
      fun _ => ⟨_, rfl⟩⟩ (by norm_num [eigCfg]) hsc prm htol hm 0 0 w hcalls hC hf
  have hE : E = bandEnergy eigH (fun _ => 1) eigX (occs .gauss 300 2 (fun _ _ => 1) 0) := by
    have : E = linearEnergy eigH (fun _ => 1) h.C h.fn := (Option.some.inj (congrArg Prod.fst d3)).symm
    rw [this, linearEnergy_eq]
    exact congrArg₂ _ d1 d2
  have hst : IsState (eigCfg .gauss) eigX (fun _ _ => 1) 0 := ⟨hsc.ortho, rfl⟩
  have hF : F = stateFree (fun X f => bandEnergy eigH (fun _ => 1) X f + 0 * electrons (fun _ => 1) f) .gauss 300 2
      (fun _ => 1) eigX (fun _ _ => 1) 0 := by
    rw [d4, hE, stateFree, entropySum]
    simp only [eigCfg]
    ring
  have hG : F = eigG 0 := by
    have h1 := C99_attained (T := 300) (mo := 2) (wk := fun _ : Fin 1 => 1) (H := eigH) (S := fun _ => 1) (V := eigX)
      (e := fun _ _ => 1) (fun k => by simpa using eig_lowest 0 k) 0
    rw [d4, hE, eigG]
    simp only [add_zero]
    exact h1
  have r : ReturnedState (linearHost (b := demoB) eigH fun _ => 1) (eigCfg .gauss)
      (fun X f => bandEnergy eigH (fun _ => 1) X f + 0 * electrons (fun _ => 1) f)
      { vals := some { tolerance := -1, F := F, S := S, iter := 0 }, converged := true } w'.s.h (eigG 0) eigX
      (occs .gauss 300 2 (fun _ _ => 1) 0) :=
    ⟨⟨_, rfl, hG⟩, ⟨_, _, hst, rfl, hG ▸ hF⟩, fun _ => ⟨c1, c2⟩⟩
  refine ⟨_, w', _, _, q, r, ?_⟩
  have := C136_derivative (V := fun _ f => electrons (fun _ => 1) f) eigG_least r (eigG_deriv 0)
  exact this ▸ eigG_deriv 0

end Nlcg
