import Verif.Spec.Basis
import Verif.Props.MeanField

/-!
# C139: a larger basis does not raise the lowest free energy
-/

namespace Nlcg
open Matrix Spec Real ComplexOrder

section
variable {K : ℕ} {n n' b : Fin K → ℕ} {η η' : Type} {host : Host η n b} {host' : Host η' n' b} {c : Cfg n b} {c' : Cfg n' b}
  {E : Orbitals n b → Bands b → ℝ} {E' : Orbitals n' b → Bands b → ℝ} {J : (k : Fin K) → Mat (n' k) (n k)}
  {info : Info ℝ} {h : η} {F F' δ : ℝ} {X : Orbitals n b} {f : Bands b}

/-- **C139 (states).** Every state of the small basis is a state of the large one, with the same free energy. -/
theorem C139_state (hp : PartOf c E c' E' J) {ek : Bands b} {mu : ℝ} (hX : IsState c X ek mu) :
    IsState c' (embed J X) ek mu ∧
      stateFree E' c'.t c'.T c'.mo c'.wk (embed J X) ek mu = stateFree E c.t c.T c.mo c.wk X ek mu := by
  obtain ⟨k1, k2, k3, k4, k5, k6, k7⟩ := hp
  refine ⟨⟨fun k => ?_, ?_⟩, ?_⟩
  · have h1 := hX.ortho k
    rw [SOrtho, k6] at h1
    rw [SOrtho, embed, conjTranspose_mul]
    simpa only [Matrix.mul_assoc] using h1
  · rw [k1, k2, k3, k5]; exact hX.occ
  · rw [k1, k2, k3, k4]
    simp only [stateFree, k7]

/-- **C139 (minimum).** A free energy that is lowest in the large basis up to `δ` is not above any free energy in the small
basis by more than `δ`. -/
theorem C139_lowest (hp : PartOf c E c' E' J) (hl : LowestUpTo c' E' δ F') : LowestUpTo c E δ F' := fun X ek mu hX => by
  obtain ⟨h1, h2⟩ := C139_state hp hX
  rw [← h2]
  exact hl _ _ _ h1

/-- **C139 (runs).** A free energy that is lowest in the large basis up to `δ`, such as that of a run there which has found
the minimum, is at most `δ` above what any run in the small basis returns. -/
theorem C139_runs (hp : PartOf c E c' E' J) (r : ReturnedState host c E info h F X f) (hl : LowestUpTo c' E' δ F') :
    F' ≤ F + δ := by
  obtain ⟨ek, mu, hX, -, rfl⟩ := r.state
  exact C139_lowest hp hl _ _ _ hX

/-- **C139 (start).** Bands that have been computed in the small basis, written in the large one: the free energy they have
there is what the run in the small basis has returned. -/
theorem C139_restart (hp : PartOf c E c' E' J) (r : ReturnedState host c E info h F X f) :
    ∃ ek mu, IsState c' (embed J X) ek mu ∧ f = occs c'.t c'.T c'.mo ek mu ∧
      stateFree E' c'.t c'.T c'.mo c'.wk (embed J X) ek mu = F := by
  obtain ⟨ek, mu, hX, rfl, rfl⟩ := r.state
  obtain ⟨h1, h2⟩ := C139_state hp hX
  exact ⟨ek, mu, h1, by rw [hp.t, hp.T, hp.mo], h2⟩

/-- **C139 (Hamiltonians).** Electrons that do not interact: the energies fit together if the Hamiltonian of the small basis
holds the matrix elements of that of the large one. -/
theorem C139_hamiltonian {H : (k : Fin K) → Mat (n k) (n k)} {H' : (k : Fin K) → Mat (n' k) (n' k)}
    (hH : ∀ k, H k = (J k)ᴴ * (H' k * J k)) (wk : Fin K → ℝ) (X : Orbitals n b) (f : Bands b) :
    bandEnergy H wk X f = bandEnergy H' wk (embed J X) f := by
  have hl : ∀ k i, levels H X k i = levels H' (embed J X) k i := fun k i => by
    simp only [levels, embed, hH, conjTranspose_mul, Matrix.mul_assoc]
  simp only [bandEnergy, hl]

/-- **C139 (complete basis).** A run in a small basis gives an upper bound for the free energy of a self-consistent state in
every larger basis. -/
theorem C139_complete (hs' : Setting host' c') (hp : PartOf c E c' E' J) (ht : Monotonic c.t) (hT : 0 < c.T) (hm : 0 < c.mo)
    (hsp : c.t = .gaussianSpline → 1 ≤ c.mo) {p : OccParams ℝ} {key : Fin K → Key} (hk : Function.Injective key)
    (hc : c.occ = searchOcc false c.t p key c.wk) {H' : (k : Fin K) → Mat (n' k) (n' k)} {V : Orbitals n' b} {e : Bands b}
    {mu : ℝ} (hM : MeanField c'.S E' c.t c.T c.mo c.wk p.ne H' V e mu) (r : ReturnedState host c E info h F X f) :
    fieldFree E' c.t c.T c.mo c.wk V e mu
      ≤ F + (|mu| * p.tol + kB * c.T * c.mo * cutoffError c.t * ∑ k, c.wk k * b k) := by
  have hl := C138_lowest (c := c') (E := E') hs' (by rw [hp.t]; exact ht) (by rw [hp.T]; exact hT) (by rw [hp.mo]; exact hm)
    (by rw [hp.t, hp.mo]; exact hsp) hk (by rw [hp.occ, hp.t, hp.wk]; exact hc)
    (by rw [hp.t, hp.T, hp.mo, hp.wk]; exact hM)
  rw [hp.t, hp.T, hp.mo, hp.wk] at hl
  obtain ⟨ek, nu, hX, -, rfl⟩ := r.state
  exact C139_lowest hp hl _ _ _ hX

end

/-! ## The run of C99, and a basis with one more function -/

abbrev wideN : Fin 1 → ℕ := fun _ => 3

/-- `flipH`, with a third function that couples to the second -/
noncomputable def wideH : (k : Fin 1) → Mat (wideN k) (wideN k) := fun _ => !![0, 1, 0; 1, 0, 1; 0, 1, 0]

theorem wide_herm (k : Fin 1) : (wideH k).IsHermitian := by
  ext i j
  fin_cases i <;> fin_cases j <;> simp [wideH]

noncomputable def wideCfg : Cfg wideN demoB :=
  { la := refLapack, t := .gauss, T := 300, kappa := 3 / 10, mo := 2, wk := fun _ => 1,
    S := fun _ => 1, P := fun _ => 1, occ := demoSearch, junk := fun _ => 0 }

noncomputable def wideHost : Host (LState wideN demoB) wideN demoB := linearHost wideH fun _ => 1

theorem wide_setting : Setting wideHost wideCfg where
  host := linearHost_ok _ wide_herm _
  lapack := refLapack_ok
  overlap := fun _ => PosSemidef.one
  prec := fun _ => PosDef.one
  weights := fun _ => one_pos
  occ := fun _ _ _ h => (searchOcc_ok h).2

/-- the first two of three functions -/
def wideJ : (k : Fin 1) → Mat (wideN k) (demoN k) := fun _ => !![1, 0; 0, 1; 0, 0]

theorem flip_part_wide : PartOf (demoCfg demoSearch) (bandEnergy flipH (demoCfg demoSearch).wk) wideCfg
    (bandEnergy wideH wideCfg.wk) wideJ where
  t := rfl
  T := rfl
  mo := rfl
  wk := rfl
  occ := rfl
  S := fun _ => by
    show (1 : Mat 2 2) = (!![1, 0; 0, 1; 0, 0] : Mat 3 2)ᴴ * ((1 : Mat 3 3) * !![1, 0; 0, 1; 0, 0])
    ext i j
    fin_cases i <;> fin_cases j <;> simp [mul_apply, Fin.sum_univ_three]
  energy := fun X f => C139_hamiltonian (fun _ => by
    show (!![0, 1; 1, 0] : Mat 2 2) = (!![1, 0; 0, 1; 0, 0] : Mat 3 2)ᴴ
      * ((!![0, 1, 0; 1, 0, 1; 0, 1, 0] : Mat 3 3) * !![1, 0; 0, 1; 0, 0])
    ext i j
    fin_cases i <;> fin_cases j <;> simp [mul_apply, Fin.sum_univ_three]) _ X f

example : ∃ (prm : NlcgParams ℝ) (info : Info ℝ) (w' : _) (F mu : ℝ) (X : Orbitals demoN demoB) (V : Orbitals wideN demoB)
    (f e : Bands demoB),
    solve flipHost (demoCfg demoSearch) prm 0 0 (demoStart 5) = some (.ok info, w') ∧
    ReturnedState flipHost (demoCfg demoSearch) (bandEnergy flipH (demoCfg demoSearch).wk) info w'.s.h F X f ∧
    MeanField wideCfg.S (bandEnergy wideH wideCfg.wk) .gauss 300 2 wideCfg.wk 1 wideH V e mu ∧
    fieldFree (bandEnergy wideH wideCfg.wk) .gauss 300 2 wideCfg.wk V e mu
      ≤ F + (|mu| * (1 / 10 ^ 11) + kB * 300 * 2 * cutoffError .gauss * ∑ k, wideCfg.wk k * demoB k) := by
  obtain ⟨V, e, hV⟩ := exists_lowest (B := 1) (wide_herm 0) (PosDef.one (n := Fin 3) (R := ℂ)) (by norm_num)
  obtain ⟨mu, hmu⟩ := exists_mu (t := .gauss) trivial (T := 300) (mo := 2) (by norm_num) wideCfg.wk
    (fun (_ : Fin 1) => e) (ne := 1) (by norm_num) (by norm_num [wideCfg])
  obtain ⟨prm, info, w', hm, q1⟩ := flip_run
  obtain ⟨F, X, f, r⟩ := C136_state flip_setting flip_noninteracting.energy (fun _ => searchOcc_clean _ _ _ _ _ _)
    flip_start hm q1
  have hM : MeanField wideCfg.S (bandEnergy wideH wideCfg.wk) .gauss 300 2 wideCfg.wk 1 wideH (fun _ => V) (fun _ => e) mu :=
    ⟨wide_herm, fun k => by rw [Subsingleton.elim k 0]; exact hV, hmu, fun X f _ _ => by linarith⟩
  exact ⟨prm, info, w', F, mu, X, _, f, _, q1, r, hM,
    C139_complete wide_setting flip_part_wide trivial (by norm_num [demoCfg]) (by norm_num [demoCfg]) (fun h => nomatch h)
      (p := { T := 300, occ := 2, ne := 1, tol := 1 / 10 ^ 11 }) (key := fun _ => toLex (0, 0))
      (fun a b _ => Subsingleton.elim a b) rfl hM r⟩

end Nlcg
