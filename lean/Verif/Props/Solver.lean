import Verif.Proofs.SolverRun
import Verif.Proofs.EntropyBound
import Verif.Proofs.SearchOcc
import Verif.Proofs.LinearHost
import Verif.Proofs.Healthy
import Verif.Proofs.Reports

/-!
# Whole runs of the composed solver: C16, C19, C21, C29, C30, C54, C55

`solve host c prm fuel rank w` is a run of `nlcg_us` against the host `host`; `Setting host c` is
what is expected of the host, of LAPACK and of the operators; `SStart host c s` says that no call was
made yet and that the host's orbitals are S-orthonormal.
-/

namespace Nlcg
open Matrix Spec ComplexOrder Arith

variable {K : ℕ} {n b : Fin K → ℕ} {η : Type}

section
variable {host : Host η n b} {c : Cfg n b} {prm : NlcgParams ℝ} {fuel rank : ℕ}
  {w w' : NState ℝ (SState η n b)} {o : Res (Info ℝ)}

/-! ## C19 -/

/-- **C19.** However a run ends, all orbitals it handed to the host are S-orthonormal. -/
theorem C19_run_orthonormal (hs : Setting host c) (h0 : SStart host c w.s)
    (h : solve host c prm fuel rank w = some (o, w')) : AllOrtho c.S w'.s.calls :=
  ((solver_rule hs).run h h0).1.2

/-- **C19.** At a normal return the orbitals in the host are S-orthonormal. -/
theorem C19_final_orthonormal (hs : Setting host c) (h0 : SStart host c w.s) (info : Info ℝ)
    (h : solve host c prm fuel rank w = some (.ok info, w')) (k : Fin K) :
    SOrtho (c.S k) (host.C w'.s.h k) := by
  obtain ⟨-, p, -, h1, h2⟩ := (((solver_rule hs).run h h0).2.2 info rfl).1
  rw [h1.C]; exact h2 k

/-- the eigenvalues whose square roots a step divides by are at least 1 -/
def SafeStep (c : Cfg n b) (pt : Point n b) (dir : Dir n b) (t : ℝ) : Prop :=
  ∀ k wl U, c.la.eigh (innerM (addM (pt.X k) (dir.zx k) (t : ℂ))
    (c.S k * addM (pt.X k) (dir.zx k) (t : ℂ))) = .ok (wl, U) → ∀ i, 1 ≤ wl i

open Classical in
/-- **C19.** Runs never divide by a vanishing or negative eigenvalue: a run is the same as with steps
that are undefined as soon as one of these eigenvalues is below 1. -/
theorem C19_run_no_division_by_zero (hs : Setting host c) (h0 : SStart host c w.s) :
    solve host c prm fuel rank w = nlcg { solverOps host c with
      geo := fun pt dir t s => if SafeStep c pt dir t then solverGeo host c pt dir t s else (.ub, s) }
      prm fuel rank w :=
  (solver_rule hs).congr (fun pt dir sl t s _ hD => by
    show solverGeo host c pt dir t s = _
    rw [if_pos]
    intro k wl U h i
    exact C19_step_no_division_by_zero hs.lapack (hs.overlap k) (hD.ortho k) (hD.tangent k) t h i)
    (fun s _ => rfl) prm fuel rank w h0

/-! ## C21 -/

/-- **C21.** The eigensolver is only ever applied to Hermitian matrices: a run does not change if the
eigensolver is replaced by another one that agrees with it on Hermitian matrices. -/
theorem C21_run_hermitian (hs : Setting host c) (h0 : SStart host c w.s)
    (heevd' : {n : ℕ} → Mat n n → ((Fin n → ℝ) × Mat n n) × Int)
    (hh : ∀ {n : ℕ} (A : Mat n n), A.IsHermitian → heevd' A = c.la.heevd A) :
    solve host { c with la := { c.la with heevd := heevd' } } prm fuel rank w
      = solve host c prm fuel rank w := by
  refine ((solver_rule hs).congr (geo' := solverGeo host { c with la := { c.la with heevd := heevd' } })
    (setup' := solverSetup host c) (fun pt dir sl t s _ hD => ?_) (fun s _ => rfl) prm fuel rank w h0).symm
  exact (solverGeo_congr { c.la with heevd := heevd' } hs hD fun A hA => by
    simp only [Lapack.eigh, hh A hA]).symm

/-! ## C16 -/

/-- **C16.** For monotone smearing, positive temperature and non-negative `kappa`, no iteration of any
run starts with a positive slope. -/
theorem C16_run_slopes (hs : Setting host c) (hd : Descending c) (h0 : SStart host c w.s)
    (h : solve host c prm fuel rank w = some (o, w')) (i : ℕ) (sl : ℝ)
    (hi : Ev.start i sl ∈ w'.trace) : sl ≤ 0 := by
  obtain ⟨pt, dir, hD⟩ := ((solver_rule hs).run h h0).2.1 i sl hi
  exact hD.slope hd

/-- **C16.** So a search is never refused for its slope. -/
theorem C16_run_never_refused (hs : Setting host c) (hd : Descending c) (hc : ∀ ek, (c.occ ek).Clean)
    (h0 : SStart host c w.s) (info : Info ℝ)
    (h : solve host c prm fuel rank w = some (.ok info, w')) (i : ℕ) :
    Ev.failed i .slopeError ∉ w'.trace := by
  intro hm
  obtain ⟨slope, e, ht, -⟩ := C31_history_is_legal _ (solver_clean host c hc) prm fuel rank w w' info h
  obtain ⟨sl, h1, h2⟩ := ht.slopeFailed_source i hm
  have := C16_run_slopes hs hd h0 h i sl h1
  have h3 := of_decide_eq_true h2
  push_cast [lit] at h3
  linarith

/-! ## C29, C30: energies and termination of the composed solver -/

/-- **C29.** If the host's energy is a function of the density matrices, the reported free energies do
not increase. -/
theorem C29_run_energies (hs : Setting host c) {E : Orbitals n b → Bands b → ℝ} (hE : EnergyOf host c E)
    (h0 : SStart host c w.s) (h : solve host c prm fuel rank w = some (o, w')) :
    ((reports w'.trace).map (·.2.1)).Pairwise (· ≥ ·) := by
  rw [solve_guarded hs prm fuel rank w h0] at h
  exact (C29_energies_do_not_increase _ _ (solver_reproducible hs hE) prm fuel rank w w' o h).1

/-- **C30.** If moreover that energy is bounded below on S-orthonormal orbitals with occupations that
belong to some band energies, every run with `tol > 0` ends, whatever the other parameters are. -/
theorem C30_run_ends_solver (hs : Setting host c) {E : Orbitals n b → Bands b → ℝ}
    (hE : EnergyOf host c E) (h0 : SStart host c w.s) (hT : 0 ≤ c.T) (L : ℝ)
    (hL : ∀ X f, Admissible c X f → L ≤ E X f) (htol : 0 < prm.tol) :
    ∃ N, ∀ fuel ≥ N, ∀ rank, solve host c prm fuel rank w ≠ none := by
  classical
  obtain ⟨M, hM⟩ := entropyTerm_bounded (b := b) c.t c.T c.mo hT c.wk fun k => (hs.weights k).le
  have hE' : EnergyOf host c fun X f => if Admissible c X f then E X f else L :=
    ⟨fun h e h' ha he => by rw [if_pos ha]; exact hE.energy h e h' ha he,
      fun X X' f f' ha ha' hd => by simp only [if_pos ha, if_pos ha']; exact hE.density _ _ _ _ ha ha' hd,
      hE.occ⟩
  obtain ⟨N, hN⟩ := C30_run_ends_bounded_energy _ _ (solver_reproducible hs hE') (L + M)
    (fun r => by
      rw [pointEnergy]
      refine add_le_add ?_ (hM _ _)
      split
      · next ha => exact hL _ _ ha
      · exact le_refl _) prm htol w
  exact ⟨N, fun fuel hf rank => by rw [solve_guarded hs prm fuel rank w h0]; exact hN fuel hf rank⟩

/-! ## C66 -/

open Classical in
/-- **C66.** If the host does not throw, LAPACK's eigensolver converges and a chemical potential is
found for all band energies, then a run with `T != 0`, `tau < 1` and `restart != 0` returns normally:
no exception leaves the solver. -/
theorem C66_returns_normally (hs : Setting host c) (hn : NeverThrows host) (ht : EighTotal c.la)
    (ho : ∀ e, ∃ mu f, c.occ e = .ok (mu, f)) (hT : c.T ≠ 0) (htau : prm.tau < 1)
    (hr : prm.restart ≠ 0) (h0 : SStart host c w.s)
    (h : solve host c prm fuel rank w = some (o, w')) : ∃ info, o = .ok info := by
  have hc := (solver_rule hs).congr (geo' := fun pt dir t s =>
      if ∃ sl, SDir c pt dir sl then solverGeo host c pt dir t s else (.ok pt, s))
    (setup' := solverSetup host c) (fun pt dir sl t s _ hD => by
      rw [if_pos ⟨sl, hD⟩]; rfl) (fun s _ => rfl) prm fuel rank w h0
  rw [solve, hc] at h
  refine nlcg_healthy ?_ hr (by simpa using htau) h
  refine ⟨fun s => ?_, fun s => ?_, fun _ _ => rfl, fun _ _ _ _ => rfl, fun pt dir t s => ?_, fun _ _ => rfl,
    fun _ _ => rfl, fun s => ?_⟩
  · show Res.isOk (if c.T = 0 then _ else _) = true
    rw [if_neg hT]; rfl
  · show (solverSetup host c s).1.isOk = true
    obtain ⟨h1, e1⟩ := hn.compute s.h
    obtain ⟨mu, f, e2⟩ := ho (host.ek h1)
    rw [solverSetup, hostCall_bind, e1]
    simp only
    rw [SM.get_bind, SM.lift_bind]
    simp only [e2]
    rw [SM.get_bind, SM.bind_apply]
    obtain ⟨s', e3⟩ := evaluate_total (c := c) hn (host.C h1) f (host.ek h1) mu
      { h := h1, F := s.F, S := s.S, calls := s.calls ++ [HostCall.compute] }
    rw [e3]
    rfl
  · show Res.isOk (Prod.fst (if ∃ sl, SDir c pt dir sl then solverGeo host c pt dir t s else (.ok pt, s))) = true
    split
    · next hd =>
      obtain ⟨sl, hD⟩ := hd
      obtain ⟨g, hg⟩ := forAllK_of_ok (fun k =>
        geodesicUs c.la (pt.X k) (pt.eta k) (dir.zx k) (dir.zeta k) (c.S k) t) fun k =>
        C19_step_defined ht (hs.overlap k) (hD.ortho k) (hD.tangent k)
          (by rw [hD.eta]; exact makeDiag_hermitian _) (hD.herm k) t
      obtain ⟨mu, f, e2⟩ := ho fun k => (g k).ek
      obtain ⟨s', e3⟩ := evaluate_total (c := c) hn (fun k => (g k).X) f (fun k => (g k).ek) mu s
      rw [solverGeo, SM.lift_bind, hg]
      simp only
      rw [SM.lift_bind, e2]
      simp only
      rw [SM.bind_apply, e3]
      rfl
    · rfl
  · show (hostCall .print host.print s).1.isOk = true
    obtain ⟨h1, e1⟩ := hn.print s.h
    rw [hostCall, e1]; rfl

/-! ## C54 -/

/-- **C54 (part).** Zero temperature is refused before the host is called. -/
theorem C54_zero_temperature_refused_partial (host : Host η n b) (c : Cfg n b) (hT : c.T = 0) :
    ∃ w', solve host c prm fuel rank w = some (.throw .runtimeError, w') ∧ w'.s = w.s ∧
      w'.file = w.file := by
  refine ⟨{ w with info := { vals := none, converged := false }, trace := [] }, ?_, rfl, rfl⟩
  simp [solve, nlcg, FM.bind_apply, FM.modify_apply, liftOp, solverOps, hT]

/-! ## C55 -/

/-- **C55.** For every host, whatever it does: the calls of a run that has ended, normally or by an
exception, are the beginning of a legal history. -/
theorem C55_protocol (host : Host η n b) (c : Cfg n b) (h0 : w.s.calls = [])
    (h : solve host c prm fuel rank w = some (o, w')) : Interrupted w'.s.calls :=
  ((protocol_rule host c).run h h0).1

/-- **C55.** At a normal return the history is complete: no evaluation is left unfinished. -/
theorem C55_complete (host : Host η n b) (c : Cfg n b) (h0 : w.s.calls = []) (info : Info ℝ)
    (h : solve host c prm fuel rank w = some (.ok info, w')) : ∃ p, Protocol w'.s.calls (some p) :=
  (((protocol_rule host c).run h h0).2.2 info rfl).1

/-- **C55.** At a normal return the host is at the point that was evaluated last. -/
theorem C55_final_state (hs : Setting host c) (h0 : SStart host c w.s) (info : Info ℝ)
    (h : solve host c prm fuel rank w = some (.ok info, w')) :
    ∃ X f mu, Protocol w'.s.calls (some (X, f, mu)) ∧
      host.C w'.s.h = X ∧ host.fn w'.s.h = f ∧ host.mu w'.s.h = mu := by
  obtain ⟨-, ⟨X, f, mu⟩, h1, h2, -⟩ := (((solver_rule hs).run h h0).2.2 info rfl).1
  exact ⟨X, f, mu, h1, h2.C, h2.fn, h2.mu⟩

/-! ## C69 -/

/-- **C69.** Whatever is reported in an iteration of a run belongs to one point: there are
S-orthonormal orbitals `X` and band energies `ek` with chemical potential `mu` such that the reported
entropy term is `-kT` times the weighted sum of the entropies of the bands, and the reported free
energy is the total energy the host returned for `X` and the occupations of `ek`, plus that term. -/
theorem C69_reported_energy (hs : Setting host c) (h0 : SStart host c w.s)
    (h : solve host c prm fuel rank w = some (o, w')) (i : ℕ) (F S sl : ℝ)
    (hm : Ev.report i F S sl ∈ w'.trace) :
    ∃ (X : Orbitals n b) (ek : Bands b) (mu : ℝ), (∀ k, SOrtho (c.S k) (X k)) ∧
      c.occ ek = .ok (mu, occs c.t c.T c.mo ek mu) ∧
      S = -(kB * c.T) * ∑ k, c.wk k * ∑ j, (smearFns c.t).entropy ((mu - ek k j) / (kB * c.T)) c.mo ∧
      ∃ h E h', host.C h = X ∧ host.fn h = occs c.t c.T c.mo ek mu ∧ host.energy h = (some E, h') ∧
        F = E + S := by
  obtain ⟨pt, dir, s, -, ⟨hJ, hS, h1, E, h2, he, hC, hf, hF⟩, -, rfl, rfl⟩ :=
    (solver_energy_rule hs).reports h h0 i F S sl hm
  exact ⟨pt.X, pt.ek, pt.mu, hJ.at_.2.1, hJ.at_.2.2, hS.trans (entropyTerm_ofFn _ _ _ _ _ _),
    h1, E, h2, hC, hf, he, hF⟩

/-- **C69.** The same holds for the free energy and the entropy term that a run returns. -/
theorem C69_returned_energy (hs : Setting host c) (hc : ∀ ek, (c.occ ek).Clean)
    (h0 : SStart host c w.s) (hm : 1 ≤ prm.maxiter) (info : Info ℝ)
    (h : solve host c prm fuel rank w = some (.ok info, w')) :
    ∃ vals, info.vals = some vals ∧ ∃ (X : Orbitals n b) (ek : Bands b) (mu : ℝ),
      (∀ k, SOrtho (c.S k) (X k)) ∧ c.occ ek = .ok (mu, occs c.t c.T c.mo ek mu) ∧
      vals.S = -(kB * c.T) * ∑ k, c.wk k * ∑ j, (smearFns c.t).entropy ((mu - ek k j) / (kB * c.T)) c.mo ∧
      ∃ h E h', host.C h = X ∧ host.fn h = occs c.t c.T c.mo ek mu ∧ host.energy h = (some E, h') ∧
        vals.F = E + vals.S := by
  obtain ⟨vals, slope, e1, -, -, -, e5, -⟩ :=
    nlcg_record _ (solver_clean host c hc) (solver_quiet host c) prm fuel rank w w' info hm h
  exact ⟨vals, e1, C69_reported_energy hs h0 h _ _ _ _ (mem_reports.1 e5)⟩

/-- the same but for the members `free_energy`, `entropy` -/
def SameButEnergy (w w' : NState ℝ (SState η n b)) : Prop :=
  w'.s.h = w.s.h ∧ w'.s.calls = w.s.calls ∧ w'.file = w.file ∧ w'.info = w.info ∧
    w'.force = w.force ∧ w'.trace = w.trace

/-- **C55.** The free energy and the entropy are read only after an evaluation: what is in those
members at the start of the run (uninitialised memory) has no influence on the outcome, on the
history of calls, on the host, on the step log or on the record. -/
theorem C55_no_uninitialised_read (host : Host η n b) (c : Cfg n b)
    (w1 w2 : NState ℝ (SState η n b)) (hw : SameButEnergy w1 w2) :
    (solve host c prm fuel rank w1 = none ∧ solve host c prm fuel rank w2 = none) ∨
    ∃ o w1' w2', solve host c prm fuel rank w1 = some (o, w1') ∧
      solve host c prm fuel rank w2 = some (o, w2') ∧ SameButEnergy w1' w2' ∧
      (∀ info, o = .ok info → w2' = w1') := by
  obtain ⟨e1, e2, e3, e4, e5, e6⟩ := hw
  have hm := setup_masks host c w1.s w2.s ⟨e1, e2⟩
  rcases hq1 : solverSetup host c w1.s with ⟨r1, s1⟩
  rcases hq2 : solverSetup host c w2.s with ⟨r2, s2⟩
  rw [hq1, hq2] at hm
  obtain ⟨m1, m2, m3⟩ := hm
  simp only at m1 m2 m3
  subst m1
  have fin : ∀ q : Option (Res (Info ℝ) × NState ℝ (SState η n b)), (q = none ∧ q = none) ∨
      ∃ o w1' w2', q = some (o, w1') ∧ q = some (o, w2') ∧ SameButEnergy w1' w2' ∧
      (∀ info, o = .ok info → w2' = w1') := by
    rintro (_ | ⟨o, w'⟩)
    · exact Or.inl ⟨rfl, rfl⟩
    · exact Or.inr ⟨o, w', w', rfl, rfl, ⟨rfl, rfl, rfl, rfl, rfl, rfl⟩, fun _ _ => rfl⟩
  simp only [solve, nlcg, FM.bind_apply, FM.modify_apply, liftOp]
  by_cases hT : c.T = 0
  · refine Or.inr ⟨.throw .runtimeError, { w1 with info := { vals := none, converged := false }, trace := [] },
      { w2 with info := { vals := none, converged := false }, trace := [] }, ?_, ?_,
      ⟨e1, e2, e3, rfl, e5, rfl⟩, by simp⟩ <;>
    simp [solverOps, hT]
  · have hc : ∀ s, (solverOps host c).construct s = (.ok (), s) := fun s => by simp [solverOps, hT]
    have hst : (solverOps host c).setup = solverSetup host c := rfl
    simp only [hc, hst, hq1, hq2]
    cases r2 with
    | ok pt =>
      obtain rfl := m3 rfl
      simp only [e5]
      exact fin _
    | throw e => exact Or.inr ⟨_, _, _, rfl, rfl, ⟨m2.1, m2.2, rfl, rfl, e5, rfl⟩, by simp⟩
    | ub => exact Or.inr ⟨_, _, _, rfl, rfl, ⟨m2.1, m2.2, rfl, rfl, e5, rfl⟩, by simp⟩
    | abort => exact Or.inr ⟨_, _, _, rfl, rfl, ⟨m2.1, m2.2, rfl, rfl, e5, rfl⟩, by simp⟩

end

/-! ## The assumptions can be met

Two plane waves, one band, the fixed Hamiltonian `[[1, 1], [1, 2]]`, Gauss smearing, no two of
orbitals and eigenvectors coincide at the start. -/

abbrev demoN : Fin 1 → ℕ := fun _ => 2
abbrev demoB : Fin 1 → ℕ := fun _ => 1

noncomputable def demoH : (k : Fin 1) → Mat (demoN k) (demoN k) := fun _ => !![1, 1; 1, 2]

noncomputable def demoCfg (occ : Bands demoB → Res (ℝ × Bands demoB)) (T : ℝ := 300) : Cfg demoN demoB :=
  { la := refLapack, t := .gauss, T := T, kappa := 3 / 10, mo := 2, wk := fun _ => 1,
    S := fun _ => 1, P := fun _ => 1, occ := occ, junk := fun _ => 0 }

/-- occupations for a fixed chemical potential -/
noncomputable def demoOcc (ek : Bands demoB) : Res (ℝ × Bands demoB) :=
  .ok (0, occs .gauss 300 2 ek 0)

/-- the search of the code for one electron -/
noncomputable def demoSearch : Bands demoB → Res (ℝ × Bands demoB) :=
  searchOcc false .gauss { T := 300, occ := 2, ne := 1, tol := 1 / 10 ^ 11 } (fun _ => toLex (0, 0))
    (fun _ => 1)

noncomputable def demoHost : Host (LState demoN demoB) demoN demoB := linearHost demoH fun _ => 1

noncomputable def demoStart (F : ℝ) : NState ℝ (SState (LState demoN demoB) demoN demoB) :=
  { s := { h := { C := fun _ => !![1; 0], hphi := fun _ => 0, fn := fun _ _ => 0, ek := fun _ _ => 0, mu := 0 },
           F := F, S := 0, calls := [] },
    file := [], info := { vals := none, converged := false }, force := false, trace := [] }

theorem demoH_eq (k : Fin 1) : demoH k = (!![1, 1; 0, 1] : Mat 2 2)ᴴ * !![1, 1; 0, 1] := by
  ext i j
  fin_cases i <;> fin_cases j <;> simp [demoH, mul_apply, Fin.sum_univ_two] <;> norm_num

theorem demoH_psd (k : Fin 1) : (demoH k).PosSemidef := by
  rw [demoH_eq]; exact posSemidef_conjTranspose_mul_self _

theorem demo_setting (occ : Bands demoB → Res (ℝ × Bands demoB)) (T : ℝ)
    (ho : ∀ ek mu f, occ ek = .ok (mu, f) → f = occs .gauss T 2 ek mu) :
    Setting demoHost (demoCfg occ T) where
  host := linearHost_ok _ (fun k => (demoH_psd k).isHermitian) _
  lapack := refLapack_ok
  overlap := fun _ => PosSemidef.one
  prec := fun _ => PosDef.one
  weights := fun _ => one_pos
  occ := ho

theorem demo_start (occ : Bands demoB → Res (ℝ × Bands demoB)) (T F : ℝ) :
    SStart demoHost (demoCfg occ T) (demoStart F).s := by
  refine ⟨rfl, fun k => ?_⟩
  show (!![(1 : ℂ); 0])ᴴ * ((1 : Mat 2 2) * !![(1 : ℂ); 0]) = 1
  ext i j; fin_cases i; fin_cases j; simp [mul_apply]

theorem demo_settings : Setting demoHost (demoCfg demoOcc) ∧ Setting demoHost (demoCfg demoSearch) :=
  ⟨demo_setting _ _ (by rintro ek mu f ⟨⟩; rfl), demo_setting _ _ fun ek mu f h => (searchOcc_ok h).2⟩

/-- also for the search of the code -/
theorem demo_energies :
    EnergyOf demoHost (demoCfg demoOcc) (linearEnergy demoH fun _ => 1) ∧
    EnergyOf demoHost (demoCfg demoSearch) (linearEnergy demoH fun _ => 1) := by
  refine ⟨linearHost_energy demoH (demoCfg demoOcc) (by rintro ek ek' mu mu' f f' - ⟨⟩ ⟨⟩; rfl),
    linearHost_energy demoH (demoCfg demoSearch) fun ek ek' mu mu' f f' hp h h' => ?_⟩
  have h1 := (searchOcc_ok h).1
  have h2 := (searchOcc_ok h').1
  rw [globalSearch_perm false _ _ _ (fun a b _ => Subsingleton.elim a b) _ ek ek' hp, h1] at h2
  exact (Res.ok.inj h2).symm

theorem demo_bounded (occ : Bands demoB → Res (ℝ × Bands demoB)) (X : Orbitals demoN demoB)
    (f : Bands demoB) (h : Admissible (demoCfg occ) X f) : 0 ≤ linearEnergy demoH (fun _ => 1) X f := by
  obtain ⟨-, e, mu, rfl⟩ := h
  refine linearEnergy_nonneg demoH demoH_psd _ (fun _ => zero_le_one) X _ fun k i => ?_
  exact (C06_occupation_bounds .gauss (by simp [Monotonic]) _ 2 (by norm_num)).1

theorem demo_never_throws : NeverThrows demoHost :=
  ⟨fun _ => ⟨_, rfl⟩, fun _ _ => ⟨_, rfl⟩, fun _ _ => ⟨_, rfl⟩, fun _ _ => ⟨_, rfl⟩, fun _ => ⟨_, _, rfl⟩,
    fun _ => ⟨_, rfl⟩⟩

/-- all hypotheses together: with enough fuel, runs return normally -/
theorem demo_returns (prm : NlcgParams ℝ) (htol : 0 < prm.tol) (htau : prm.tau < 1)
    (hr : prm.restart ≠ 0) : ∃ fuel info w',
    solve demoHost (demoCfg demoOcc) prm fuel 0 (demoStart 5) = some (.ok info, w') := by
  obtain ⟨N, hN⟩ := C30_run_ends_solver (w := demoStart 5) (prm := prm) demo_settings.1 demo_energies.1
    (demo_start _ _ _) (by norm_num [demoCfg]) 0 (demo_bounded demoOcc) htol
  have h1 := hN N (le_refl _) 0
  rcases hq : solve demoHost (demoCfg demoOcc) prm N 0 (demoStart 5) with _ | ⟨o, w'⟩
  · exact absurd hq h1
  · obtain ⟨info, rfl⟩ := C66_returns_normally demo_settings.1 demo_never_throws refLapack_total
      (fun e => ⟨_, _, rfl⟩) (by norm_num [demoCfg]) htau hr (demo_start _ _ _) hq
    exact ⟨N, info, w', hq⟩

/-- and with the code's own search for the chemical potential, runs end -/
example (prm : NlcgParams ℝ) (htol : 0 < prm.tol) :
    ∃ fuel o w', solve demoHost (demoCfg demoSearch) prm fuel 0 (demoStart 5) = some (o, w') := by
  obtain ⟨N, hN⟩ := C30_run_ends_solver (w := demoStart 5) (prm := prm) demo_settings.2 demo_energies.2
    (demo_start _ _ _) (by norm_num [demoCfg]) 0 (demo_bounded demoSearch) htol
  rcases hq : solve demoHost (demoCfg demoSearch) prm N 0 (demoStart 5) with _ | ⟨o, w'⟩
  · exact absurd hq (hN N (le_refl _) 0)
  · exact ⟨N, o, w', hq⟩

/-- a run that returns a record -/
example (prm : NlcgParams ℝ) (htol : 0 < prm.tol) (htau : prm.tau < 1) (hr : prm.restart ≠ 0)
    (hm : 1 ≤ prm.maxiter) : ∃ fuel info w' vals,
    solve demoHost (demoCfg demoOcc) prm fuel 0 (demoStart 5) = some (.ok info, w') ∧
    info.vals = some vals := by
  obtain ⟨fuel, info, w', h⟩ := demo_returns prm htol htau hr
  obtain ⟨vals, hv, -⟩ := C69_returned_energy demo_settings.1 (fun _ => by simp [demoCfg, demoOcc, Res.Clean])
    (demo_start _ _ _) hm info h
  exact ⟨fuel, info, w', vals, h, hv⟩

example : Descending (demoCfg demoOcc) :=
  ⟨by simp [demoCfg, Monotonic], by norm_num [demoCfg], by norm_num [demoCfg], by norm_num [demoCfg]⟩

example : ∀ ek, ((demoCfg demoSearch).occ ek).Clean := fun _ => searchOcc_clean _ _ _ _ _ _

example : SameButEnergy (demoStart 5) (demoStart 7) := ⟨rfl, rfl, rfl, rfl, rfl, rfl⟩

/-- an eigensolver that differs from the reference on matrices that are not Hermitian -/
example : ∃ h' : {n : ℕ} → Mat n n → ((Fin n → ℝ) × Mat n n) × Int,
    (∀ {n : ℕ} (A : Mat n n), A.IsHermitian → h' A = refLapack.heevd A) ∧
    h' (!![0, 1; 0, 0] : Mat 2 2) ≠ refLapack.heevd (!![0, 1; 0, 0] : Mat 2 2) := by
  classical
  refine ⟨fun {n} A => if A.IsHermitian then refLapack.heevd A
    else ((refLapack.heevd A).1, (refLapack.heevd A).2 + 1), fun A hA => if_pos hA, ?_⟩
  have : ¬ (!![0, 1; 0, 0] : Mat 2 2).IsHermitian := by
    intro h
    have := congrFun (congrFun h 0) 1
    simp at this
  simp only [if_neg this]
  intro h
  have := congrArg Prod.snd h
  simp at this

/-- **C54 is false for negative temperatures**: at -300 K every run that ends returns normally, and
there are such runs. -/
theorem C54_not_negative_temperature_refused : ∃ c : Cfg demoN demoB, c.T < 0 ∧
    (∀ (prm : NlcgParams ℝ) (fuel rank : ℕ) (o : Res (Info ℝ))
      (w' : NState ℝ (SState (LState demoN demoB) demoN demoB)), prm.tau < 1 → prm.restart ≠ 0 →
      solve demoHost c prm fuel rank (demoStart 5) = some (o, w') → ∃ info, o = .ok info) ∧
    ∀ (prm : NlcgParams ℝ) (fuel rank : ℕ), prm.maxiter ≤ 0 →
      ∃ o w', solve demoHost c prm fuel rank (demoStart 5) = some (o, w') := by
  refine ⟨demoCfg (fun ek => .ok (0, occs .gauss (-300) 2 ek 0)) (-300), by norm_num [demoCfg],
    fun prm fuel rank o w' htau hr h => ?_, fun prm fuel rank hm => ?_⟩
  · exact C66_returns_normally (demo_setting _ _ (by rintro ek mu f ⟨⟩; rfl)) demo_never_throws
      refLapack_total (fun e => ⟨_, _, rfl⟩) (by norm_num [demoCfg]) htau hr (demo_start _ _ _) h
  · have : solve demoHost (demoCfg (fun ek => .ok (0, occs .gauss (-300) 2 ek 0)) (-300)) prm fuel rank
        (demoStart 5) ≠ none := by
      rw [solve, nlcg]
      refine FM.bind_ne_none (by simp) fun _ _ _ => ?_
      refine FM.bind_ne_none (by simp [liftOp]) fun _ _ _ => ?_
      refine FM.bind_ne_none (by simp) fun _ _ _ => ?_
      refine FM.bind_ne_none (by simp [liftOp]) fun _ _ _ => ?_
      refine FM.bind_ne_none (by simp [liftOp]) fun _ _ _ => ?_
      refine FM.bind_ne_none (by simp) fun _ _ _ => ?_
      rw [show prm.maxiter.toNat = 0 by omega, cgLoop]
      exact FM.bind_ne_none (by simp) fun _ _ _ => by simp
    obtain ⟨⟨o, w'⟩, hq⟩ := Option.ne_none_iff_exists'.1 this
    exact ⟨o, w', hq⟩

end Nlcg
