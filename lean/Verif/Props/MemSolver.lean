import Verif.Proofs.MemSolverRun
import Verif.Proofs.MemHostRef
import Verif.Proofs.MemAlgoRef
import Verif.Props.Solver

/-!
# C75: a whole run in memory

`solveMem mh mc prm fuel rank w` is a run of `nlcg_us` on memory which it shares with the host `mh`;
`solve host c prm fuel rank w'` is the run of `Props/Solver` with matrices as values.
-/

namespace Nlcg
open Spec

variable {K : ℕ} {n b : Fin K → ℕ} {η ξ : Type} {mh : MHost η b} {host : Host ξ n b} {mc : MCfg b}
  {c : Cfg n b} {prm : NlcgParams ℝ} {fuel rank : ℕ}

/-- **C75.** A run in memory ends as the run on matrices does, with the same result, the same step log,
the same record and the same history, wherever the host has its buffers, wherever new objects are placed,
whatever is in memory that was not written, and in whatever order the threads work. If the run ends, the
hosts still correspond, and memory in use at the start that does not belong to the host is as before. -/
theorem C75_run (M : MirrorsHost mh host) (hc : SameCfg mc c) (hn : ∀ k, 0 < n k) (hb : ∀ k, 0 < b k)
    {w : NState ℝ (MState η)} {w' : NState ℝ (SState ξ n b)} (h : SameStart M w w') :
    (solveMem mh mc prm fuel rank w).map observed = (solve host c prm fuel rank w').map observed ∧
    ∀ r v r' v', solveMem mh mc prm fuel rank w = some (r, v) → solve host c prm fuel rank w' = some (r', v') →
      Spec.Finite v.s.mem ∧ M.Rep v.s.h v.s.mem v'.s.h ∧
      ∀ a x, a ∉ M.own w.s.h → w.s.mem a = some x → v.s.mem a = some x := by
  have h1 := nlcg_rel (memSim M hc hn hb) prm fuel rank (w := w)
    (w' := { w' with s := { w'.s with F := w.s.F, S := w.s.S } })
    ⟨⟨h.fin, h.rep, rfl, rfl⟩, h.file, h.info, h.force, h.trace⟩
  have h2 := C55_no_uninitialised_read (prm := prm) (fuel := fuel) (rank := rank) host c
    { w' with s := { w'.s with F := w.s.F, S := w.s.S } } w' ⟨rfl, rfl, rfl, rfl, rfl, rfl⟩
  unfold solveMem
  unfold solve at h2 ⊢
  rcases h2 with ⟨e1, e2⟩ | ⟨o, v1, v2, e1, e2, hs, -⟩
  · rw [e1] at h1
    rw [e2]
    cases hq : nlcg (memOps mh mc) prm fuel rank w with
    | none => simp
    | some x => rw [hq] at h1; cases h1
  · rw [e1] at h1
    rw [e2]
    cases hq : nlcg (memOps mh mc) prm fuel rank w with
    | none => rw [hq] at h1; cases h1
    | some x =>
      rw [hq] at h1
      cases h1 with
      | some h1 =>
      obtain ⟨⟨hR, f1, f2, f3, f4⟩, hl, hv⟩ := h1
      obtain ⟨r, v⟩ := x
      obtain ⟨s1, s2, s3, s4, s5, s6⟩ := hs
      simp only at f1 f2 f3 f4 hR hl hv
      have hro : r = o := by cases hv <;> simp_all
      refine ⟨?_, ?_⟩
      · simp [observed, hro, f1, f2, f3, f4, s3, s4, s5, s6]
      · rintro _ _ _ _ ⟨⟩ ⟨⟩
        exact ⟨hR.1, s1 ▸ hR.2.1, fun a x ha hx => (hl a x ha hx).2⟩

/-- **C75.** Two runs in memory, with different hosts' buffers, allocators, contents of uninitialised memory
and schedules, cannot be told apart. -/
theorem C75_same_result {η' : Type} {mh' : MHost η' b} {mc' : MCfg b} (M : MirrorsHost mh host)
    (M' : MirrorsHost mh' host) (hc : SameCfg mc c) (hc' : SameCfg mc' c) (hn : ∀ k, 0 < n k) (hb : ∀ k, 0 < b k)
    {w : NState ℝ (MState η)} {v : NState ℝ (MState η')} {w' : NState ℝ (SState ξ n b)}
    (h : SameStart M w w') (h' : SameStart M' v w') :
    (solveMem mh mc prm fuel rank w).map observed = (solveMem mh' mc' prm fuel rank v).map observed :=
  (C75_run M hc hn hb h).1.trans (C75_run M' hc' hn hb h').1.symm

/-- **C75.** No run with `restart != 0` and `maxiter >= 1` accesses memory that is not in use, or has
other undefined behaviour, whatever the parameters are and wherever it is interrupted by an exception,
provided the search for the chemical potential has none. -/
theorem C75_no_invalid_access (M : MirrorsHost mh host) (hc : SameCfg mc c) (hn : ∀ k, 0 < n k)
    (hb : ∀ k, 0 < b k) (ho : ∀ ek, c.occ ek ≠ .ub ∧ (c.occ ek).Clean) (hm : 1 ≤ prm.maxiter)
    (hr : prm.restart ≠ 0) {w v : NState ℝ (MState η)} {w' : NState ℝ (SState ξ n b)} (h : SameStart M w w')
    {o : Res (Info ℝ)} (hv : solveMem mh mc prm fuel rank w = some (o, v)) :
    o ≠ .ub ∧ ∀ info, o = .ok info → info.vals.isSome = true := by
  have h1 := (C75_run (prm := prm) (fuel := fuel) (rank := rank) M hc hn hb h).1
  rw [hv] at h1
  cases hq : solve host c prm fuel rank w' with
  | none => rw [hq] at h1; simp at h1
  | some x =>
    obtain ⟨o', v'⟩ := x
    rw [hq] at h1
    simp only [Option.map_some, Option.some.injEq, observed, Prod.mk.injEq] at h1
    obtain ⟨rfl, -⟩ := h1
    exact C32_defined_partial _ (solver_clean host c fun ek => (ho ek).2) (solver_quiet host c)
      (solver_defined host c fun ek => (ho ek).1) prm hm hr fuel rank w' v' o hq

/-- **C75.** The host has the orbitals of the accepted point in its buffers at a normal return, and they
are S-orthonormal. -/
theorem C75_final_orthonormal (M : MirrorsHost mh host) (hc : SameCfg mc c) (hn : ∀ k, 0 < n k)
    (hb : ∀ k, 0 < b k) (hs : Setting host c) {w v : NState ℝ (MState η)} {w' : NState ℝ (SState ξ n b)}
    (h : SameStart M w w') (h0 : SStart host c w'.s) (info : Info ℝ)
    (hv : solveMem mh mc prm fuel rank w = some (.ok info, v)) :
    ∃ X : Orbitals n b, ∀ k, Holds v.s.mem (mh.C v.s.h k) (X k) ∧ SOrtho (c.S k) (X k) := by
  have h1 := C75_run (prm := prm) (fuel := fuel) (rank := rank) M hc hn hb h
  cases hq : solve host c prm fuel rank w' with
  | none => rw [hv, hq] at h1; simp at h1
  | some x =>
    obtain ⟨o', v'⟩ := x
    obtain ⟨h1, h2⟩ := h1
    obtain ⟨-, h3, -⟩ := h2 _ _ _ _ hv hq
    rw [hv, hq] at h1
    simp only [Option.map_some, Option.some.injEq, observed, Prod.mk.injEq] at h1
    obtain ⟨rfl, -⟩ := h1
    exact ⟨host.C v'.s.h, fun k => ⟨(M.C h3 k).2.1, C19_final_orthonormal hs h0 info hq k⟩⟩

/-- **C75.** A trial step writes the orbitals of the trial into the buffers of the host, and the host may
overwrite and move all of its buffers, but the point and the direction the step starts from remain in
memory unchanged, so that the next trial starts from the same point. Whether the trial fails or not. -/
theorem C75_trial_keeps_point (M : MirrorsHost mh host) (hc : SameCfg mc c) (hn : ∀ k, 0 < n k)
    (hb : ∀ k, 0 < b k) {s : MState η} {x : ξ} (hm : Spec.Finite s.mem) (hx : M.Rep s.h s.mem x)
    {p : PtMem K} {q : Point n b} (hp : PtRel0 M s p q) {d : DirMem K} {d' : Dir n b} (hd : DirRel M s d d')
    (t : ℝ) :
    PtRel0 M (solverGeoMem mh mc p d t s).2 p q ∧ DirRel M (solverGeoMem mh mc p d t s).2 d d' := by
  have h := geo_out (M := M) hc hn hb (s' := { h := x, F := s.F, S := s.S, calls := [] })
    ⟨hm, hx, rfl, rfl⟩ hp hd t
  exact ⟨hp.mono h.2.1, hd.mono h.2.1⟩

/-! ## The assumptions can be met

The host of `Props/Solver` with its buffers in memory; every schedule. -/

noncomputable def demoMCfg (occ : Bands demoB → Res (ℝ × Bands demoB)) (sch : Sched) : MCfg demoB :=
  { E := memEnv refLapack sch, t := .gauss, T := 300, kappa := 3 / 10, mo := 2, wk := fun _ => 1,
    S := fun _ => mulOp (1 : Mat 2 2), P := fun _ => mulOp (1 : Mat 2 2), occ := occ }

theorem demo_same (occ : Bands demoB → Res (ℝ × Bands demoB)) (sch : Sched) :
    SameCfg (demoMCfg occ sch) (demoCfg occ) :=
  ⟨memEnv_ok _ _, rfl, rfl, rfl, rfl, rfl, rfl, fun _ => mulOp_applies _, fun _ => mulOp_applies _⟩

/-- the buffers of the host -/
noncomputable def demoMirror : MirrorsHost (bufferHost demoHost) demoHost :=
  bufferHost_mirrors (linearHost_plain _ _) (by simp)

/-- a start for every value of the uninitialised members -/
theorem demo_same_start (F S : ℝ) : ∃ w, SameStart demoMirror w (demoStart 5) ∧ w.s.F = F ∧ w.s.S = S := by
  obtain ⟨m, hm, hr⟩ := bufferHost_start (linearHost_plain demoH fun _ => 1) (demoStart 5).s.h
  exact ⟨{ s := ⟨m, (demoStart 5).s.h, F, S⟩, file := [], info := { vals := none, converged := false },
           force := false, trace := [] }, ⟨hm, hr, rfl, rfl, rfl, rfl⟩, rfl, rfl⟩

/-- A run in memory that returns normally: all hypotheses together. -/
example (prm : NlcgParams ℝ) (htol : 0 < prm.tol) (htau : prm.tau < 1) (hr : prm.restart ≠ 0) (sch : Sched) :
    ∃ fuel info w v, SameStart demoMirror w (demoStart 5) ∧ SStart demoHost (demoCfg demoOcc) (demoStart 5).s ∧
      solveMem (bufferHost demoHost) (demoMCfg demoOcc sch) prm fuel 0 w = some (.ok info, v) := by
  obtain ⟨fuel, info, w', h⟩ := demo_returns prm htol htau hr
  obtain ⟨w, hw, -⟩ := demo_same_start 1 2
  have h1 := (C75_run (prm := prm) (fuel := fuel) (rank := 0) demoMirror (demo_same demoOcc sch) (by simp)
    (by simp) hw).1
  rw [h] at h1
  cases hq : solveMem (bufferHost demoHost) (demoMCfg demoOcc sch) prm fuel 0 w with
  | none => rw [hq] at h1; simp at h1
  | some x =>
    obtain ⟨o, v⟩ := x
    rw [hq] at h1
    simp only [Option.map_some, Option.some.injEq, observed, Prod.mk.injEq] at h1
    obtain ⟨rfl, -⟩ := h1
    exact ⟨fuel, info, w, v, hw, demo_start _ _ _, hq⟩

example : ∀ ek, (demoCfg demoOcc).occ ek ≠ .ub ∧ ((demoCfg demoOcc).occ ek).Clean :=
  fun _ => ⟨by simp [demoCfg, demoOcc], by simp [demoCfg, demoOcc, Res.Clean]⟩

/-- a point and a direction in memory, next to the buffers of the host -/
example (sch : Sched) : ∃ (s : MState (LState demoN demoB)) (x : LState demoN demoB) (p : PtMem 1)
    (q : Point demoN demoB) (d : DirMem 1) (d' : Dir demoN demoB), Spec.Finite s.mem ∧
    demoMirror.Rep s.h s.mem x ∧ PtRel0 demoMirror s p q ∧ DirRel demoMirror s d d' := by
  obtain ⟨w, hw, -⟩ := demo_same_start 1 2
  have h1 := setup_out (M := demoMirror) (demo_same demoOcc sch) (by simp) (by simp)
    (s := w.s) (s' := { (demoStart 5).s with F := w.s.F, S := w.s.S }) ⟨hw.fin, hw.rep, rfl, rfl⟩
  obtain ⟨q, s1, e1⟩ : ∃ q s1, solverSetup demoHost (demoCfg demoOcc)
      { (demoStart 5).s with F := w.s.F, S := w.s.S } = (.ok q, s1) := ⟨_, _, rfl⟩
  rw [e1] at h1
  obtain ⟨hR, -, hv⟩ := h1
  generalize (setupMem (bufferHost demoHost) (demoMCfg demoOcc sch) w.s).2 = s2 at hR hv
  generalize (setupMem (bufferHost demoHost) (demoMCfg demoOcc sch) w.s).1 = r at hv
  cases hv with
  | ok hp =>
  have h2 := restarted_out (demo_same demoOcc sch) (by simp) (by simp) hR hp
  obtain ⟨hR', hl, hv⟩ := h2
  generalize (solverRestartedMem (bufferHost demoHost) (demoMCfg demoOcc sch) _ s2).2 = s3 at hR' hl hv
  generalize (solverRestartedMem (bufferHost demoHost) (demoMCfg demoOcc sch) _ s2).1 = r at hv
  cases hv with
  | ok hd => exact ⟨s3, _, _, q, _, _, hR'.1, hR'.2.1, hp.mono hl, hd.2⟩

end Nlcg
