import Verif.Proofs.Noise
import Verif.Props.Solver

/-!
# Energies with an error: C126

`RisesWithin ε x y`: the free energy reported at `y` is at most the one reported at `x` plus `ε` for
each iteration in between plus `ε`. `NoReset t i j`: no search of the iterations `i, …, j - 1` gave up
and reset.
-/

namespace Nlcg
open Spec Matrix Arith

section
variable {σ ρ δ : Type} {ops : Ops ℝ σ ρ δ} {E : ρ → ℝ} {ε : ℝ} {prm : NlcgParams ℝ} {fuel rank : ℕ}
  {w w' : NState ℝ σ} {o : Res (Info ℝ)}

theorem noisy_run (hE : Noisy ops E ε) (hε : 0 ≤ ε) (h : nlcg ops prm fuel rank w = some (o, w')) :
    (reports w'.trace).Pairwise (Steady w'.trace ε) := by
  cases nlcg_run ops prm fuel rank w _ _ h with
  | construct => simp [reports]
  | setup => simp [reports]
  | restarted => simp [reports]
  | loop s1 pt s2 slope dir s3 o w' h1 h2 h3 h4 =>
    have hF : |ops.getF s3 - E pt| ≤ ε := by
      have := hE.restarted pt s2
      rw [h3] at this
      simp only at this
      rw [this]
      exact hE.setup _ _ _ h2
    obtain ⟨new, e1, -, e3⟩ := h4.noisy hE hε hF
    simp only [reports, List.nil_append] at e1
    rw [e1]
    exact e3

/-- **C126.** If every energy is within `ε` of the energy of the point evaluated, then however the run
ends, the reported free energy rises by at most `ε` per iteration, plus `ε`. -/
theorem C126_rise (hE : Noisy ops E ε) (hε : 0 ≤ ε) (h : nlcg ops prm fuel rank w = some (o, w')) :
    (reports w'.trace).Pairwise (RisesWithin ε) :=
  (noisy_run hE hε h).imp fun a => a.1

/-- **C126.** Between two reports without a reset in between, it does not rise at all. -/
theorem C126_no_reset (hE : Noisy ops E ε) (hε : 0 ≤ ε)
    (h : nlcg ops prm fuel rank w = some (o, w')) :
    (reports w'.trace).Pairwise fun x y => NoReset w'.trace x.1 y.1 → y.2.1 ≤ x.2.1 :=
  (noisy_run hE hε h).imp fun a => a.2

end

/-- **C126** for the composed solver: the host's energy is within `ε` of a function of the density
matrices. -/
theorem C126_run {K : ℕ} {n b : Fin K → ℕ} {η : Type} {host : Host η n b} {c : Cfg n b}
    {prm : NlcgParams ℝ} {fuel rank : ℕ} {w w' : NState ℝ (SState η n b)} {o : Res (Info ℝ)}
    (hs : Setting host c) {E : Orbitals n b → Bands b → ℝ} {ε : ℝ} (hε : 0 ≤ ε)
    (hE : EnergyWithin host c E ε) (h0 : SStart host c w.s)
    (h : solve host c prm fuel rank w = some (o, w')) :
    (reports w'.trace).Pairwise (RisesWithin ε) ∧
    (reports w'.trace).Pairwise fun x y => NoReset w'.trace x.1 y.1 → y.2.1 ≤ x.2.1 := by
  rw [solve_guarded hs prm fuel rank w h0] at h
  exact ⟨C126_rise (solver_noisy hs hE) hε h, C126_no_reset (solver_noisy hs hE) hε h⟩

/-- **C126.** Errors do not keep a run from ending: with `tol > 0` and an energy bounded below, every
run ends. -/
theorem C126_ends {K : ℕ} {n b : Fin K → ℕ} {η : Type} {host : Host η n b} {c : Cfg n b}
    {prm : NlcgParams ℝ} {w : NState ℝ (SState η n b)}
    (hs : Setting host c) {E : Orbitals n b → Bands b → ℝ} {ε : ℝ} (hε : 0 ≤ ε)
    (hE : EnergyWithin host c E ε) (h0 : SStart host c w.s) (hT : 0 ≤ c.T) (L : ℝ)
    (hL : ∀ X f, Admissible c X f → L ≤ E X f) (htol : 0 < prm.tol) :
    ∃ N, ∀ fuel ≥ N, ∀ rank, solve host c prm fuel rank w ≠ none := by
  classical
  obtain ⟨M, hM⟩ := entropyTerm_bounded (b := b) c.t c.T c.mo hT c.wk fun k => (hs.weights k).le
  have hE' : EnergyWithin host c (fun X f => if Admissible c X f then E X f else L) ε :=
    ⟨fun h e h' ha he => by rw [if_pos ha]; exact hE.energy h e h' ha he,
      fun X X' f f' ha ha' hd => by simp only [if_pos ha, if_pos ha']; exact hE.density _ _ _ _ ha ha' hd,
      hE.occ⟩
  obtain ⟨N, hN⟩ := noisy_ends (solver_noisy hs hE') hε (L + M)
    (fun r => by
      rw [pointEnergy]
      refine add_le_add ?_ (hM _ _)
      split
      · next ha => exact hL _ _ ha
      · exact le_refl _) prm htol w
  exact ⟨N, fun fuel hf rank => by rw [solve_guarded hs prm fuel rank w h0]; exact hN fuel hf rank⟩

/-- a host with an error: that of the examples, which adds `1/8` to the energy whenever the current
chemical potential is not 0 -/
noncomputable def noisyHost : Host (LState demoN demoB) demoN demoB :=
  { demoHost with energy := fun h =>
      ((demoHost.energy h).1.map fun e => if demoHost.mu h = 0 then e else e + 1 / 8, (demoHost.energy h).2) }

theorem noisyHost_setting : Setting noisyHost (demoCfg demoOcc) ∧
    EnergyWithin noisyHost (demoCfg demoOcc) (linearEnergy demoH fun _ => 1) (1 / 8) ∧
    SStart noisyHost (demoCfg demoOcc) (demoStart 5).s := by
  have hs := demo_settings.1
  have hE := demo_energies.1
  refine ⟨⟨⟨hs.host.setC, hs.host.setFn, ?_, ?_, ?_, ?_⟩, hs.lapack, hs.overlap, hs.prec, hs.weights, hs.occ⟩,
    ⟨?_, hE.density, hE.occ⟩, demo_start _ _ _⟩
  · intro h h' e
    obtain ⟨a, b, H, c⟩ := hs.host.compute h h' e
    exact ⟨a, b, H, ⟨c.1, c.2, c.3⟩⟩
  · intro mu h h' e
    obtain ⟨a, b⟩ := hs.host.setMu mu h h' e
    exact ⟨⟨a.1, a.2, a.3, a.4⟩, b⟩
  · intro h e h' he
    rcases hq : demoHost.energy h with ⟨_ | e0, h0⟩
    · simp [noisyHost, hq] at he
    · simp only [noisyHost, hq, Option.map_some, Prod.mk.injEq] at he
      obtain ⟨a, b⟩ := hs.host.energy h e0 h0 hq
      obtain ⟨-, rfl⟩ := he
      exact ⟨⟨a.1, a.2, a.3, a.4⟩, b⟩
  · intro h h' e
    obtain ⟨a, b⟩ := hs.host.print h h' e
    exact ⟨⟨a.1, a.2, a.3, a.4⟩, b⟩
  · intro h e h' ha he
    rcases hq : demoHost.energy h with ⟨_ | e0, h0⟩
    · simp [noisyHost, hq] at he
    · simp only [noisyHost, hq, Option.map_some, Prod.mk.injEq, Option.some.injEq] at he
      obtain ⟨he, rfl⟩ := he
      have := hE.energy h e0 h0 ha hq
      show |e - linearEnergy demoH (fun _ => 1) (demoHost.C h) (demoHost.fn h)| ≤ _
      rw [← this, ← he]
      split
      · simp
      · rw [add_sub_cancel_left]; norm_num [abs_of_pos]

example (prm : NlcgParams ℝ) (htol : 0 < prm.tol) :
    ∃ fuel o w', solve noisyHost (demoCfg demoOcc) prm fuel 0 (demoStart 5) = some (o, w') := by
  obtain ⟨hs, hE, h0⟩ := noisyHost_setting
  obtain ⟨N, hN⟩ := C126_ends (prm := prm) hs (by norm_num) hE h0 (by norm_num [demoCfg]) 0
    (demo_bounded demoOcc) htol
  rcases hq : solve noisyHost (demoCfg demoOcc) prm N 0 (demoStart 5) with _ | ⟨o, w'⟩
  · exact absurd hq (hN N (le_refl _) 0)
  · exact ⟨N, o, w', hq⟩

/-! ## The bound is attained -/

/-- One coordinate `x` with energy `x`; any step leads to `x + 2`. The first evaluation and every step
report 1 too little, every evaluation of step 0 reports 1 too much. -/
noncomputable def driftOps : Ops ℝ ℝ ℝ Unit where
  construct s := (.ok (), s)
  setup _ := (.ok 0, -1)
  restarted _ s := (.ok (-3, ()), s)
  conjugated _ _ _ s := (.ok (-3, -3, ()), s)
  geo x _ t _ := open Classical in if t = 0 then (.ok x, x + 1) else (.ok (x + 2), x + 1)
  refresh x s := (.ok x, s)
  gather _ s := (.ok (), s)
  hostPrint s := (.ok (), s)
  getF s := s
  getS _ := 0

theorem drift_noisy : Noisy driftOps id 1 where
  setup := by intro s r s' h; cases h; norm_num [driftOps]
  geo := by
    intro pt dir t s r s' h
    simp only [driftOps] at h
    split at h <;> cases h <;> simp [driftOps] <;> norm_num
  zero := by
    intro pt dir s r s' h
    simp only [driftOps, if_true] at h
    cases h; rfl
  refresh := by intro r s pt s' h; cases h; exact ⟨rfl, rfl⟩
  restarted := fun _ _ => rfl
  conjugated := fun _ _ _ _ => rfl
  gather := fun _ _ => rfl
  hostPrint := fun _ => rfl

/-- parameters of the example -/
noncomputable def driftPrm (m : ℕ) : NlcgParams ℝ :=
  { maxiter := m, tol := 1, tau := 1 / 10 ^ 9, restart := 1 }

/-- any step but 0 -/
theorem drift_geo (x t s : ℝ) (ht : t ≠ 0) : driftOps.geo x () t s = (.ok (x + 2), x + 1) := by
  simp [driftOps, ht]

theorem drift_zero (x s : ℝ) : driftOps.geo x () 0 s = (.ok x, x + 1) := by simp [driftOps]

theorem drift_F (s : ℝ) : driftOps.getF s = s := rfl

/-- a search that resets -/
theorem drift_reset (x : ℝ) : lineSearch { G := driftOps.geo x (), getF := driftOps.getF }
    { tTrial := lit (2 / 10), tau := 1 / 10 ^ 9 } 2 (-3)
    { s := x - 1, forceRestart := false, evals := [] } =
      some (.ok x, { s := x + 1, forceRestart := true, evals := [0, 2 / 10, 3 / 130, 2 / 10] }) := by
  have a1 : qCurv (x - 1) (-3) (x + 1) (2 / 10) = 65 := by simp only [qCurv, real_sub, real_mul, real_div]; ring
  have a2 : qMin (-3 : ℝ) 65 = 3 / 130 := by simp [qMin]; norm_num
  have a3 : (lit (2 / 10) : ℝ) = 2 / 10 := by simp
  have a4 : (lit (1 / 10 ^ 8) : ℝ) = 1 / 10 ^ 8 := by simp
  have a5 : (lit 0 : ℝ) = 0 := by simp
  have a6 : (lit 1 : ℝ) = 1 := by simp
  have b1 := fun s => drift_geo x (2 / 10) s (by norm_num)
  have b2 := fun s => drift_geo x (3 / 130) s (by norm_num)
  have c0 : (lit 0 <ᶠ (-3 : ℝ)) = false := by simp
  have c1 : ((65 : ℝ) <ᶠ 0) = false := by simp
  have c2 : (x - 1 <ᶠ x + 1) = true := by simp only [real_lt, decide_eq_true_eq]; linarith
  have c3 : (x + 1 <ᶠ x - 1) = false := by simp only [real_lt, decide_eq_false_iff_not]; linarith
  have c4 : ((1 : ℝ) ≤ᶠ 1 / 10 ^ 9) = false := by simp only [real_le, decide_eq_false_iff_not]; norm_num
  have c5 : ((1 : ℝ) / 10 ^ 8 <ᶠ 2 / 10) = true := by simp only [real_lt, decide_eq_true_eq]; norm_num
  have c6 : ((1 : ℝ) / 10 ^ 8 <ᶠ (2 / 10 *ᶠ (1 / 10 ^ 9))) = false := by
    simp only [real_lt, real_mul, decide_eq_false_iff_not]; norm_num
  rw [lineSearch, c0]
  simp only [qline, qlineLoop, btSearch, btLoop, evalG, readF, setRestart, a3, a4, a5, a6,
    FM.bind_apply, FM.attempt, b1, b2, drift_zero, drift_F, a1, a2, c1, c2, c3, c4, c5, c6, if_true,
    Bool.false_eq_true, if_false, FM.modify_apply, FM.get_apply, FM.pure_apply, FM.throw_apply]

/-- a search that succeeds -/
theorem drift_step (x : ℝ) : lineSearch { G := driftOps.geo x (), getF := driftOps.getF }
    { tTrial := lit (2 / 10), tau := 1 / 10 ^ 9 } 2 (-3)
    { s := x + 1, forceRestart := true, evals := [] } =
      some (.ok (x + 2), { s := x + 1, forceRestart := false, evals := [1 / 10, 2 / 10] }) := by
  have a1 : qCurv (x + 1) (-3) (x + 1) (2 / 10) = 15 := by simp only [qCurv, real_sub, real_mul, real_div]; ring
  have a2 : qMin (-3 : ℝ) 15 = 1 / 10 := by simp [qMin]; norm_num
  have a3 : (lit (2 / 10) : ℝ) = 2 / 10 := by simp
  have a5 : (lit 0 : ℝ) = 0 := by simp
  have b1 := fun s => drift_geo x (2 / 10) s (by norm_num)
  have b2 := fun s => drift_geo x (1 / 10) s (by norm_num)
  have c0 : (lit 0 <ᶠ (-3 : ℝ)) = false := by simp
  have c1 : ((15 : ℝ) <ᶠ 0) = false := by simp
  have c2 : (x + 1 <ᶠ x + 1) = false := by simp
  rw [lineSearch, c0]
  simp only [qline, qlineLoop, evalG, readF, setRestart, a3, a5,
    FM.bind_apply, FM.attempt, b1, b2, drift_F, a1, a2, c1, c2, if_true,
    Bool.false_eq_true, if_false, FM.modify_apply, FM.pure_apply]

/-- the loop's variables at `x` -/
def driftVars (x : ℝ) : Vars ℝ ℝ Unit := { pt := x, dir := (), slope := -3, fr := -3 }

theorem drift_json (i : ℕ) (sl x : ℝ) (w : NState ℝ ℝ) :
    writeJson driftOps 1 i sl x w = some (.ok (), w) := by
  rw [writeJson]
  split <;> simp [driftOps]

/-- an iteration, given what its search does -/
theorem drift_body (m i : ℕ) (x y s' : ℝ) (force' : Bool) (ev : List ℝ) (w : NState ℝ ℝ)
    (h : lineSearch { G := driftOps.geo x (), getF := driftOps.getF }
      { tTrial := lit (2 / 10), tau := 1 / 10 ^ 9 } 2 (-3)
      { s := w.s, forceRestart := w.force, evals := [] } =
        some (.ok y, { s := s', forceRestart := force', evals := ev })) :
    cgBody driftOps (driftPrm m) 2 1 i (driftVars x) w = some (.ok (driftVars y),
      { w with
        s := s', force := force', info := printInfo w.s 0 (-3) i
        trace := w.trace ++ [.report i w.s 0 (-3), .search i w.force, .found i force', .steepest i (-3)] }) := by
  have h1 : (driftPrm m).restart = 1 := rfl
  have h2 : (driftPrm m).tau = 1 / 10 ^ 9 := rfl
  rw [cgBody, FM.bind_apply, drift_json]
  simp only [FM.bind_apply, setInfo, FM.modify_apply, liftOp, runSearch, driftVars, h2, h1, one_ne_zero, if_false,
    FM.get_apply, Int.tmod_one, true_or, if_true, callRestarted, emit]
  have h3 : ∀ s, driftOps.hostPrint s = (.ok (), s) := fun _ => rfl
  have h4 : ∀ x s, driftOps.refresh x s = (.ok x, s) := fun _ _ => rfl
  have h5 : ∀ x s, driftOps.restarted x s = (.ok (-3, ()), s) := fun _ _ => rfl
  have h6 : ∀ s, driftOps.getS s = 0 := fun _ => rfl
  simp only [h3, h4, h5, h6, drift_F, h, FM.bind_apply, FM.modify_apply, FM.pure_apply, List.append_assoc]
  simp

/-- the reports of `2 m` iterations that begin at iteration `i` and `x` -/
def driftReports : ℕ → ℕ → ℝ → List Report
  | 0, _, _ => []
  | m + 1, i, x => (i, x - 1, 0, -3) :: (i + 1, x + 1, 0, -3) :: driftReports m (i + 2) (x + 2)

theorem drift_loop (N : ℕ) : ∀ (m i : ℕ) (x : ℝ) (w : NState ℝ ℝ), w.s = x - 1 → w.force = false →
    ∃ o w', cgLoop driftOps (driftPrm N) 2 1 (2 * m) i (driftVars x) w = some (o, w') ∧
      reports w'.trace = reports w.trace ++ driftReports m i x := by
  intro m
  have ht : ∀ x, (Arith.abs (driftVars x).slope <ᶠ (driftPrm N).tol) = false := fun x => by
    simp only [real_lt, real_abs, decide_eq_false_iff_not, driftPrm, driftVars]; norm_num
  induction m with
  | zero => intro i x w _ _; exact ⟨.ok w.info, w, rfl, by simp [driftReports]⟩
  | succ m ih =>
    intro i x w hs hf
    have b1 := drift_body N i x x (x + 1) true _ (started i (driftVars x).slope w)
      (by simp only [started, hs, hf]; exact drift_reset x)
    generalize hw1 : NState.mk _ _ _ _ _ = w1 at b1
    have b2 := drift_body N (i + 1) x (x + 2) (x + 1) false _ (started (i + 1) (driftVars x).slope w1)
      (by subst hw1; exact drift_step x)
    generalize hw2 : NState.mk _ _ _ _ _ = w2 at b2
    obtain ⟨o, w', e1, e2⟩ := ih (i + 2) (x + 2) w2 (by subst hw2; simp only; ring) (by subst hw2; rfl)
    refine ⟨o, w', ?_, ?_⟩
    · rw [show 2 * (m + 1) = 2 * m + 1 + 1 by ring, cgLoop_step (ht x) b1, cgLoop_step (ht x) b2]
      exact e1
    · rw [e2, ← hw2, ← hw1]
      simp [reports_append, reports, driftReports, started, hs]

theorem drift_last : ∀ (m i : ℕ) (x : ℝ),
    (i + 2 * m + 1, x + (2 * m + 1), 0, -3) ∈ driftReports (m + 1) i x := by
  intro m
  induction m with
  | zero => intro i x; simp [driftReports]
  | succ m ih =>
    intro i x
    rw [driftReports]
    refine List.mem_cons_of_mem _ (List.mem_cons_of_mem _ ?_)
    have := ih (i + 2) (x + 2)
    push_cast
    convert this using 2
    · ring
    · congr 1; ring

/-- **C126.** The bound is attained, after any odd number of iterations: here all energies are within
1 of those of the points evaluated, the first report says -1, and that of iteration `2 m + 1` exceeds
it by `2 m + 2`. So errors of the host's energies add up, however small they are. -/
theorem C126_attained (m : ℕ) : ∃ (ops : Ops ℝ ℝ ℝ Unit) (E : ℝ → ℝ), Noisy ops E 1 ∧
    ∃ prm fuel w o w' F0 rest F, nlcg ops prm fuel 1 w = some (o, w') ∧
      reports w'.trace = (0, F0, 0, -3) :: rest ∧ (2 * m + 1, F, 0, -3) ∈ rest ∧
      F = F0 + 1 * (((2 * m + 1 : ℕ) : ℝ) + 1) := by
  refine ⟨driftOps, id, drift_noisy, driftPrm (2 * (m + 1)), 2,
    { s := 0, file := [], info := { vals := none, converged := false }, force := false, trace := [] }, ?_⟩
  obtain ⟨o, w', h1, h2⟩ := drift_loop (2 * (m + 1)) (m + 1) 0 0
    { s := -1, file := [], info := { vals := none, converged := false }, force := false, trace := [] }
    (by norm_num) rfl
  have h3 := drift_last m 0 0
  rw [driftReports] at h3
  refine ⟨o, w', -1, (1, 1, 0, -3) :: driftReports m 2 2, 2 * m + 1, h1, ?_, ?_, ?_⟩
  · rw [h2]
    simp only [reports, List.nil_append, driftReports, zero_sub, zero_add]
  · rcases List.mem_cons.1 h3 with h3 | h3
    · simp at h3
    · convert h3 using 2 <;> simp
  · push_cast; ring

end Nlcg
