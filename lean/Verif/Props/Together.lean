import Verif.Proofs.Together
import Verif.Props.Spmd

/-!
# C128: ranks stay together if they see the same numbers, and only then

`rankRun ω c prm fuel` is what one rank does if its collective operations get the replies `ω 0, ω 1, …`; `opsCalled` are
the names of the operations it has called.
-/

namespace Nlcg
open Spec Matrix Arith

variable {K R : ℕ} {own : Fin K → Fin R} {n b : Fin K → ℕ} {r r' : Fin R}

/-- what the run of a rank shows, up to its own orbitals and band energies -/
def shown {β : Type} (x : Res β × NState ℝ (RState own n b r)) :
    Res β × List OpName × ℝ × ℝ × Info ℝ × List (Ev ℝ) :=
  (x.1, opsCalled x.2.s, x.2.s.F, x.2.s.S, x.2.info, x.2.trace)

/-- **C128.** Two ranks that get the same outcomes and numbers from the host and from MPI call the same operations in the
same order, end in the same way and report the same values, whatever their own k-points, orbitals and operators are. -/
theorem C128_together {ω : ℕ → Reply own n b r} {ω' : ℕ → Reply own n b r'} (hω : ∀ i, Shared (ω i) (ω' i))
    {c : LCfg own n b r} {c' : LCfg own n b r'} (hc : SameSetup c c') (prm : NlcgParams ℝ) (fuel : ℕ)
    {w : NState ℝ (RState own n b r)} {w' : NState ℝ (RState own n b r')}
    (hl : w.s.log = [] ∧ w'.s.log = []) (hF : w.s.F = w'.s.F) (hS : w.s.S = w'.s.S) (hi : w.info = w'.info)
    (hf : w.force = w'.force) (ht : w.trace = w'.trace) :
    (rankRun ω c prm fuel w).map shown = (rankRun ω' c' prm fuel w').map shown := by
  have hR : (rankWorld own n b r r').R w.s w'.s := ⟨by rw [opsCalled, opsCalled, hl.1, hl.2]; rfl, hF, hS⟩
  have h1 := nlcg_rel (togetherSim hω hc) prm fuel r.val (w := w) (w' := { w' with file := w.file })
    ⟨hR, rfl, hi, hf, ht⟩
  have h2 := nlcg_alike (rankOps ω' c') prm fuel r.val r'.val { w' with file := w.file } w' ⟨rfl, rfl, rfl, rfl⟩
  unfold rankRun
  generalize nlcg (rankOps ω c) prm fuel r.val w = x at h1
  generalize nlcg (rankOps ω' c') prm fuel r.val { w' with file := w.file } = y at h1 h2
  generalize nlcg (rankOps ω' c') prm fuel r'.val w' = z at h2
  cases h1 with
  | none => cases h2; rfl
  | some g =>
    cases h2 with
    | some g' =>
      rename_i x y z
      obtain ⟨ox, x⟩ := x
      obtain ⟨oy, y⟩ := y
      obtain ⟨oz, z⟩ := z
      obtain ⟨⟨⟨a1, a2, a3⟩, -, a4, -, a5⟩, -, a6⟩ := g
      obtain ⟨⟨b1, b2, -, b4⟩, -, b6⟩ := g'
      have e1 : ox = oy := by cases a6 <;> first | rfl | (rename_i h; rw [h])
      have e2 : oy = oz := by cases b6 <;> first | rfl | (rename_i h; rw [h])
      simp only at a1 a2 a3 a4 a5 b1 b2 b4
      simp only [Option.map_some, shown, Option.some.injEq, Prod.mk.injEq]
      rw [← b1, ← b2, ← b4]
      exact ⟨e1.trans e2, a1, a2, a3, a4, a5⟩

/-! ## Energies that differ -/

section
variable {σ ρ : Type} {env : LSEnv ℝ σ ρ} {s0 s1 s2 s3 : σ} {p1 p2 p3 : ρ} {tau : ℝ} {e : ℝ}

theorem search_accepts (g1 : env.G (2 / 10) s0 = (.ok p1, s1)) (g2 : env.G (1 / 60) s1 = (.ok p2, s2))
    (f0 : env.getF s0 = 0) (f1 : env.getF s1 = 1) (f2 : env.getF s2 = 0) (n : ℕ) (fl : Bool) :
    ∃ ev, lineSearch env { tTrial := Arith.lit (2 / 10), tau := tau } (n + 1) (-1)
      { s := s0, forceRestart := fl, evals := [] } = some (.ok p2, { s := s2, forceRestart := false, evals := ev }) := by
  have a1 : qCurv (0 : ℝ) (-1) 1 (2 / 10) = 30 := by simp only [qCurv, real_sub, real_mul, real_div]; norm_num
  have a2 : qMin (-1 : ℝ) 30 = 1 / 60 := by simp [qMin]; norm_num
  have a3 : (Arith.lit (2 / 10) : ℝ) = 2 / 10 := by simp
  have a5 : (Arith.lit 0 : ℝ) = 0 := by simp
  have c0 : (Arith.lit 0 <ᶠ (-1 : ℝ)) = false := by simp
  have c1 : ((30 : ℝ) <ᶠ 0) = false := by simp
  have c2 : ((0 : ℝ) <ᶠ 0) = false := by simp
  refine ⟨[1 / 60, 2 / 10], ?_⟩
  rw [lineSearch, c0]
  simp only [qline, qlineLoop, evalG, readF, setRestart, a3, a5, FM.bind_apply, FM.attempt, g1, g2, f0, f1, f2, a1, a2,
    c1, c2, if_true, Bool.false_eq_true, if_false, FM.modify_apply, FM.pure_apply]

theorem search_backtracks (g1 : env.G (2 / 10) s0 = (.ok p1, s1)) (g2 : env.G (1 / 60) s1 = (.ok p2, s2))
    (g3 : env.G (2 / 10) s2 = (.ok p3, s3)) (f0 : env.getF s0 = 0) (f1 : env.getF s1 = 1) (f2 : env.getF s2 = e)
    (f3 : env.getF s3 = -1) (he : 0 < e) (ht : tau < 1) (n : ℕ) (fl : Bool) :
    ∃ ev, lineSearch env { tTrial := Arith.lit (2 / 10), tau := tau } (n + 1) (-1)
      { s := s0, forceRestart := fl, evals := [] } = some (.ok p3, { s := s3, forceRestart := false, evals := ev }) := by
  have a1 : qCurv (0 : ℝ) (-1) 1 (2 / 10) = 30 := by simp only [qCurv, real_sub, real_mul, real_div]; norm_num
  have a2 : qMin (-1 : ℝ) 30 = 1 / 60 := by simp [qMin]; norm_num
  have a3 : (Arith.lit (2 / 10) : ℝ) = 2 / 10 := by simp
  have a4 : (Arith.lit (1 / 10 ^ 8) : ℝ) = 1 / 10 ^ 8 := by simp
  have a5 : (Arith.lit 0 : ℝ) = 0 := by simp
  have a6 : (Arith.lit 1 : ℝ) = 1 := by simp
  have c0 : (Arith.lit 0 <ᶠ (-1 : ℝ)) = false := by simp
  have c1 : ((30 : ℝ) <ᶠ 0) = false := by simp
  have c2 : ((0 : ℝ) <ᶠ e) = true := by simpa using he
  have c3 : ((-1 : ℝ) <ᶠ 0) = true := by simp
  have c4 : ((1 : ℝ) ≤ᶠ tau) = false := by simpa using ht
  have c5 : ((1 : ℝ) / 10 ^ 8 <ᶠ 2 / 10) = true := by simp only [real_lt, decide_eq_true_eq]; norm_num
  refine ⟨[2 / 10, 1 / 60, 2 / 10], ?_⟩
  rw [lineSearch, c0]
  simp only [qline, qlineLoop, btSearch, btLoop, evalG, readF, setRestart, a3, a4, a5, a6, FM.bind_apply, FM.attempt,
    g1, g2, g3, f0, f1, f2, f3, a1, a2, c1, c2, c3, c4, c5, if_true, Bool.false_eq_true, if_false, FM.modify_apply,
    FM.pure_apply, FM.throw_apply]

end

/-- replies to the first 31 operations of a run: the energy is 0 at the start, 1 at the first trial point and `e` at the
second, the slope is -1; then `tail` -/
noncomputable def script (v : View own n b r) (y : Bands b) (wk : Fin K → ℝ) (e : ℝ) (tail : ℕ → Reply own n b r) :
    ℕ → Reply own n b r
  | 0 => .host true v
  | 1 => .bands y
  | 2 => .weights wk
  | 3 => .host true v
  | 4 => .host true v
  | 5 => .host true v
  | 6 => .host true v
  | 7 => .energy (some 0) v
  | 8 => .real 0
  | 9 => .real 0
  | 10 => .real 0
  | 11 => .real (-1)
  | 12 => .bands y
  | 13 => .bands y
  | 14 => .host true v
  | 15 => .bands y
  | 16 => .weights wk
  | 17 => .host true v
  | 18 => .host true v
  | 19 => .host true v
  | 20 => .host true v
  | 21 => .energy (some 1) v
  | 22 => .real 0
  | 23 => .bands y
  | 24 => .weights wk
  | 25 => .host true v
  | 26 => .host true v
  | 27 => .host true v
  | 28 => .host true v
  | 29 => .energy (some e) v
  | 30 => .real 0
  | i + 31 => tail i

/-- replies to a step with energy -1 and a new direction -/
noncomputable def scriptStep (v : View own n b r) (y : Bands b) (wk : Fin K → ℝ) : ℕ → Reply own n b r
  | 0 => .bands y
  | 1 => .weights wk
  | 2 => .host true v
  | 3 => .host true v
  | 4 => .host true v
  | 5 => .host true v
  | 6 => .energy (some (-1)) v
  | _ => .real 0

/-- parameters of the example -/
noncomputable def oncePrm (tol tau : ℝ) : NlcgParams ℝ := { maxiter := 1, tol := tol, tau := tau, restart := 1 }

/-- operations until the second trial point is evaluated -/
def commonOps : List OpName :=
  .compute :: stepOps ++ [.reduce, .reduce, .reduce] ++ [.gather, .gather] ++ [.print] ++ stepOps ++ stepOps

section
variable {ω : ℕ → Reply own n b r} {c : LCfg own n b r} {tol tau : ℝ} {w : NState ℝ (RState own n b r)}

/-- a run of one iteration, given what the search does -/
theorem once_run {w0 : NState ℝ (RState own n b r)} {p0 p : RPoint own n b r} {d : RDir own n b r}
    {s1 s2 s3 s4 s5 : RState own n b r} {fuel : ℕ} {ev : List ℝ} {l : List OpName} {sl : ℝ} (hT : c.T ≠ 0)
    (htol : tol ≤ 1)
    (e1 : setupR ω c w0.s = (.ok p0, s1)) (e2 : restartedR ω c p0 s1 = (.ok (-1, d), s2))
    (e3 : jsonGatherR ω p0 s2 = (.ok (), s3)) (e4 : hostR ω .print s3 = (.ok (), s4))
    (e5 : lineSearch { G := geoR ω c p0 d, getF := RState.F } { tTrial := Arith.lit (2 / 10), tau := tau } fuel (-1)
      { s := s4, forceRestart := false, evals := [] } =
        some (.ok p, { s := s5, forceRestart := false, evals := ev }))
    (e6 : ∀ p', Does (restartedR ω c p') s5 l fun a s' => a.1 = sl ∧ s'.F = s5.F) :
    ∃ info v, rankRun ω c (oncePrm tol tau) fuel w0 = some (.ok info, v) ∧ opsCalled v.s = opsCalled s5 ++ l := by
  have b1 : ∀ s, (rankOps ω c).construct s = (.ok (), s) := fun s => by simp [rankOps, hT]
  have b2 : (rankOps ω c).setup = setupR ω c := rfl
  have b3 : (rankOps ω c).restarted = restartedR ω c := rfl
  have b4 : (rankOps ω c).gather = jsonGatherR ω := rfl
  have b5 : (rankOps ω c).hostPrint = hostR ω .print := rfl
  have b6 : (rankOps ω c).geo = geoR ω c := rfl
  have b7 : (rankOps ω c).getF = RState.F := rfl
  have b8 : ∀ p s, ∃ p', (rankOps ω c).refresh p s = (.ok p', s) := fun p s => ⟨_, rfl⟩
  obtain ⟨p', b8⟩ := b8 p s5
  obtain ⟨⟨sl', d'⟩, s6, e6, hn, -⟩ := e6 p'
  have h1 : (Arith.abs (-1 : ℝ) <ᶠ tol) = false := by
    show decide (|(-1 : ℝ)| < tol) = false
    rw [decide_eq_false]
    simpa using htol
  have h2 : (oncePrm tol tau).tol = tol := rfl
  have h3 : (oncePrm tol tau).tau = tau := rfl
  have h4 : (oncePrm tol tau).restart = 1 := rfl
  have h5 : (oncePrm tol tau).maxiter.toNat = 1 := rfl
  simp only [rankRun, nlcg, FM.bind_apply, FM.modify_apply, liftOp, b1, b2, b3, e1, e2, h5, cgLoop, emit, h2, h1,
    Bool.false_eq_true, if_false, FM.attempt, cgBody, writeJson, setInfo, b4, b5, b6, b7, e3, e4, runSearch, h3, h4, e5,
    Nat.zero_mod, if_true, b8, one_ne_zero, Int.tmod_one, true_or, callRestarted, e6, FM.get_apply, FM.pure_apply]
  exact ⟨_, _, rfl, hn⟩

/-- everything until the line search -/
theorem once_start (ho : ∀ w e, ∃ x, c.occ w e = .ok x) {v : View own n b r} {y : Bands b} {wk : Fin K → ℝ} {e : ℝ}
    {tail : ℕ → Reply own n b r} (h : ω = script v y wk e tail) {s0 : RState own n b r} (hl : s0.log = []) :
    ∃ p0 d s1 s2 s3 s4, setupR ω c s0 = (.ok p0, s1) ∧ restartedR ω c p0 s1 = (.ok (-1, d), s2) ∧
      jsonGatherR ω p0 s2 = (.ok (), s3) ∧ hostR ω .print s3 = (.ok (), s4) ∧ s4.F = 0 ∧ s4.log.length = 15 ∧
      opsCalled s4 = .compute :: stepOps ++ [.reduce, .reduce, .reduce] ++ [.gather, .gather] ++ [.print] := by
  have len : ∀ s : RState own n b r, s.log.length = (opsCalled s).length := fun s => by simp [opsCalled]
  have n0 : opsCalled s0 = [] := by rw [opsCalled, hl]; rfl
  have l0 : s0.log.length = 0 := by rw [hl]; rfl
  obtain ⟨p0, s1, a1, a2, a3⟩ := does_setup (ω := ω) (c := c) (s := s0) ho (e := 0) ⟨v, by rw [l0, h]; rfl⟩
    ⟨⟨y, by rw [l0, h]; rfl⟩, ⟨wk, by rw [l0, h]; rfl⟩, ⟨v, by rw [l0, h]; rfl⟩, ⟨v, by rw [l0, h]; rfl⟩,
      ⟨v, by rw [l0, h]; rfl⟩, ⟨v, by rw [l0, h]; rfl⟩, ⟨v, by rw [l0, h]; rfl⟩, by rw [l0, h]; rfl⟩
  rw [n0, List.nil_append] at a2
  have l1 : s1.log.length = 9 := by rw [len, a2]; rfl
  obtain ⟨⟨sl, d⟩, s2, b1, b2, b3, b4⟩ := does_restarted (ω := ω) (c := c) (s := s1) (x1 := 0) (x2 := 0) (x3 := -1)
    (by rw [l1, h]; rfl) (by rw [l1, h]; rfl) (by rw [l1, h]; rfl) p0
  simp only at b3
  subst b3
  rw [a2] at b2
  have l2 : s2.log.length = 12 := by rw [len, b2]; rfl
  obtain ⟨⟨⟩, s3, c1, c2, c3⟩ := does_json (ω := ω) (s := s2) (y := y) (y' := y) (by rw [l2, h]; rfl)
    (by rw [l2, h]; rfl) p0
  rw [b2] at c2
  have l3 : s3.log.length = 14 := by rw [len, c2]; rfl
  obtain ⟨⟨⟩, s4, d1, d2, d3⟩ := does_host (ω := ω) (s := s3) (q := .print) (v := v) (by rw [l3, h]; rfl)
  rw [c2] at d2
  have l4 : s4.log.length = 15 := by rw [len, d2]; rfl
  exact ⟨p0, d, s1, s2, s3, s4, a1, b1, c1, d1, by rw [d3, c3, b4, a3], l4, d2⟩

/-- the step after the `k`-th operation of the script -/
theorem once_steps (htot : ∀ {m : ℕ} (A : Mat m m), (c.la.heevd A).2 = 0) (ho : ∀ w e, ∃ x, c.occ w e = .ok x)
    {v : View own n b r} {y : Bands b} {wk : Fin K → ℝ} {e : ℝ} {tail : ℕ → Reply own n b r}
    (h : ω = script v y wk e tail) {s4 : RState own n b r} (hl : s4.log.length = 15) (p : RPoint own n b r)
    (d : RDir own n b r) : ∃ p1 s5 p2 s6, geoR ω c p d (2 / 10) s4 = (.ok p1, s5) ∧
      geoR ω c p d (1 / 60) s5 = (.ok p2, s6) ∧ s5.F = 1 ∧ s6.F = e ∧ s6.log.length = 31 ∧
      opsCalled s6 = opsCalled s4 ++ stepOps ++ stepOps := by
  have len : ∀ s : RState own n b r, s.log.length = (opsCalled s).length := fun s => by simp [opsCalled]
  obtain ⟨p1, s5, a1, a2, a3⟩ := does_geo (ω := ω) (c := c) (s := s4) htot ho (e := 1)
    ⟨⟨y, by rw [hl, h]; rfl⟩, ⟨wk, by rw [hl, h]; rfl⟩, ⟨v, by rw [hl, h]; rfl⟩, ⟨v, by rw [hl, h]; rfl⟩,
      ⟨v, by rw [hl, h]; rfl⟩, ⟨v, by rw [hl, h]; rfl⟩, ⟨v, by rw [hl, h]; rfl⟩, by rw [hl, h]; rfl⟩ p d (2 / 10)
  have l5 : s5.log.length = 23 := by rw [len, a2, List.length_append, ← len, hl]; rfl
  obtain ⟨p2, s6, b1, b2, b3⟩ := does_geo (ω := ω) (c := c) (s := s5) htot ho (e := e)
    ⟨⟨y, by rw [l5, h]; rfl⟩, ⟨wk, by rw [l5, h]; rfl⟩, ⟨v, by rw [l5, h]; rfl⟩, ⟨v, by rw [l5, h]; rfl⟩,
      ⟨v, by rw [l5, h]; rfl⟩, ⟨v, by rw [l5, h]; rfl⟩, ⟨v, by rw [l5, h]; rfl⟩, by rw [l5, h]; rfl⟩ p d (1 / 60)
  rw [a2] at b2
  refine ⟨p1, s5, p2, s6, a1, b1, a3, b3, ?_, b2⟩
  rw [len, b2, List.length_append, List.length_append, ← len, hl]
  rfl

/-- the second energy equals the first: the step is accepted, and the next operation is a sum over the ranks -/
theorem once_accepts (hT : c.T ≠ 0) (htot : ∀ {m : ℕ} (A : Mat m m), (c.la.heevd A).2 = 0)
    (ho : ∀ w e, ∃ x, c.occ w e = .ok x) (htol : tol ≤ 1) (v : View own n b r) (y : Bands b) (wk : Fin K → ℝ)
    (fuel : ℕ) (hl : w.s.log = []) : ∃ info x, rankRun (script v y wk 0 fun _ => .real 0) c (oncePrm tol tau) (fuel + 1) w
      = some (.ok info, x) ∧ opsCalled x.s = commonOps ++ [.reduce, .reduce, .reduce] := by
  generalize hω : script v y wk 0 (fun _ => .real 0) = ω
  obtain ⟨p0, d, s1, s2, s3, s4, e1, e2, e3, e4, hF, hl4, hn⟩ := once_start (c := c) ho hω.symm hl
  obtain ⟨p1, s5, p2, s6, g1, g2, f1, f2, hl6, hn6⟩ := once_steps (c := c) htot ho hω.symm hl4 p0 d
  obtain ⟨ev, hs⟩ := search_accepts (env := { G := geoR ω c p0 d, getF := RState.F }) (tau := tau) g1 g2 hF f1 f2 fuel
    false
  obtain ⟨info, x, h1, h2⟩ := once_run (l := [.reduce, .reduce, .reduce]) (sl := 0) hT htol e1 e2 e3 e4 hs
    (does_restarted (by rw [hl6, ← hω]; rfl) (by rw [hl6, ← hω]; rfl) (by rw [hl6, ← hω]; rfl))
  exact ⟨info, x, h1, by rw [h2, hn6, hn]; rfl⟩

/-- the second energy is larger: backtracking evaluates a third point, and the next operation is a gather -/
theorem once_backtracks (hT : c.T ≠ 0) (htot : ∀ {m : ℕ} (A : Mat m m), (c.la.heevd A).2 = 0)
    (ho : ∀ w e, ∃ x, c.occ w e = .ok x) (htol : tol ≤ 1) (htau : tau < 1) {e : ℝ} (he : 0 < e) (v : View own n b r)
    (y : Bands b) (wk : Fin K → ℝ) (fuel : ℕ) (hl : w.s.log = []) :
    ∃ info x, rankRun (script v y wk e (scriptStep v y wk)) c (oncePrm tol tau) (fuel + 1) w = some (.ok info, x) ∧
      opsCalled x.s = commonOps ++ (stepOps ++ [.reduce, .reduce, .reduce]) := by
  generalize hω : script v y wk e (scriptStep v y wk) = ω
  obtain ⟨p0, d, s1, s2, s3, s4, e1, e2, e3, e4, hF, hl4, hn⟩ := once_start (c := c) ho hω.symm hl
  obtain ⟨p1, s5, p2, s6, g1, g2, f1, f2, hl6, hn6⟩ := once_steps (c := c) htot ho hω.symm hl4 p0 d
  obtain ⟨p3, s7, g3, hn7, f3⟩ := does_geo (ω := ω) (c := c) (s := s6) htot ho (e := -1)
    ⟨⟨y, by rw [hl6, ← hω]; rfl⟩, ⟨wk, by rw [hl6, ← hω]; rfl⟩, ⟨v, by rw [hl6, ← hω]; rfl⟩,
      ⟨v, by rw [hl6, ← hω]; rfl⟩, ⟨v, by rw [hl6, ← hω]; rfl⟩, ⟨v, by rw [hl6, ← hω]; rfl⟩,
      ⟨v, by rw [hl6, ← hω]; rfl⟩, by rw [hl6, ← hω]; rfl⟩ p0 d (2 / 10)
  have hl7 : s7.log.length = 39 := by
    have len : ∀ s : RState own n b r, s.log.length = (opsCalled s).length := fun s => by simp [opsCalled]
    rw [len, hn7, List.length_append, ← len, hl6]
    rfl
  obtain ⟨ev, hs⟩ := search_backtracks (env := { G := geoR ω c p0 d, getF := RState.F }) (tau := tau) g1 g2 g3 hF f1 f2
    f3 he htau fuel false
  obtain ⟨info, x, h1, h2⟩ := once_run (l := [.reduce, .reduce, .reduce]) (sl := 0) hT htol e1 e2 e3 e4 hs
    (does_restarted (by rw [hl7, ← hω]; rfl) (by rw [hl7, ← hω]; rfl) (by rw [hl7, ← hω]; rfl))
  exact ⟨info, x, h1, by rw [h2, hn7, hn6, hn]; rfl⟩

end

/-- **C128, the other half.** The library does not distribute the energy that the host returned, so ranks must get the
same number bit by bit: for every `ε > 0`, two ranks whose replies agree except that one energy differs by at most `ε` may
both be in the run, have called the same 31 operations, and then call different collective operations: one sums a number
over the ranks, the other gathers band energies. With MPI such a pair of calls does not complete. -/
theorem C128_separated {ε tol tau : ℝ} (hε : 0 < ε) (htol : tol ≤ 1) (htau : tau < 1) {c : LCfg own n b r}
    {c' : LCfg own n b r'} (hc : SameSetup c c') (hT : c.T ≠ 0) (ho : ∀ w e, ∃ x, c.occ w e = .ok x) (fuel : ℕ)
    {w : NState ℝ (RState own n b r)} {w' : NState ℝ (RState own n b r')} (hl : w.s.log = [] ∧ w'.s.log = []) :
    ∃ (ω : ℕ → Reply own n b r) (ω' : ℕ → Reply own n b r'), (∀ i < 31, Nearly ε (ω i) (ω' i)) ∧
      ∃ info x info' x', rankRun ω c (oncePrm tol tau) (fuel + 1) w = some (.ok info, x) ∧
        rankRun ω' c' (oncePrm tol tau) (fuel + 1) w' = some (.ok info', x') ∧
        ∃ pre l l', pre.length = 31 ∧ opsCalled x.s = pre ++ .reduce :: l ∧ opsCalled x'.s = pre ++ .gather :: l' := by
  obtain ⟨info, x, h1, h2⟩ := once_accepts (tau := tau) hT hc.total ho htol w.s.view (fun _ _ => 0) (fun _ => 0) fuel hl.1
  obtain ⟨info', x', h1', h2'⟩ := once_backtracks (c := c') (hc.T ▸ hT) hc.total' (hc.occ ▸ ho) htol htau hε w'.s.view
    (fun _ _ => 0) (fun _ => 0) fuel hl.2
  refine ⟨_, _, ?_, info, x, info', x', h1, h1', commonOps, _, _, rfl, h2, h2'⟩
  intro i hi
  interval_cases i
  all_goals first | exact .shared (.host ..) | exact .shared (.bands ..) | exact .shared (.weights ..) |
    exact .shared (.real ..) | exact .shared (.energy ..) | exact .energy _ _ _ _ (by simp [abs_of_pos hε])

/-! ## Two ranks with a k-point each -/

/-- the settings of rank `i` -/
noncomputable def duoRank (i : Fin 2) : LCfg (id : Fin 2 → Fin 2) duoN duoB i :=
  localCfg id duoCfg (fun _ ek => .ok (0, occs .gauss 300 2 ek 0)) i

theorem duoRank_same : SameSetup (duoRank 0) (duoRank 1) := ⟨rfl, rfl, fun _ => rfl, fun _ => rfl⟩

/-- the ranks get the same numbers, with views of their own: they stay together, here in a run that ends -/
example : ∃ x y, rankRun (script (rankStart id duoHost duoStart 0).s.view (fun _ _ => 0) (fun _ => 1 / 2) 0 fun _ => .real 0)
      (duoRank 0) (oncePrm 1 0) 1 (rankStart id duoHost duoStart 0) = some x ∧
    rankRun (script (rankStart id duoHost duoStart 1).s.view (fun _ _ => 0) (fun _ => 1 / 2) 0 fun _ => .real 0)
      (duoRank 1) (oncePrm 1 0) 1 (rankStart id duoHost duoStart 1) = some y ∧
    shown x = shown y ∧ (opsCalled x.2.s).length = 34 := by
  have h := C128_together (c := duoRank 0) (c' := duoRank 1) (prm := oncePrm 1 0) (fuel := 1)
    (w := rankStart id duoHost duoStart 0) (w' := rankStart id duoHost duoStart 1)
    (ω := script (rankStart id duoHost duoStart 0).s.view (fun _ _ => 0) (fun _ => 1 / 2) 0 fun _ => .real 0)
    (ω' := script (rankStart id duoHost duoStart 1).s.view (fun _ _ => 0) (fun _ => 1 / 2) 0 fun _ => .real 0)
    (by
      intro i
      rcases lt_or_ge i 31 with hi | hi
      · interval_cases i
        all_goals first | exact .host .. | exact .bands .. | exact .weights .. | exact .real .. | exact .energy ..
      · obtain ⟨j, rfl⟩ := Nat.exists_eq_add_of_le' hi
        exact .real _)
    duoRank_same ⟨rfl, rfl⟩ rfl rfl rfl rfl rfl
  obtain ⟨info, x, h1, h2⟩ := once_accepts (c := duoRank 0) (tol := 1) (tau := 0) (w := rankStart id duoHost duoStart 0)
    (by norm_num [duoRank, localCfg, duoCfg]) (fun _ => rfl) (fun _ _ => ⟨_, rfl⟩) le_rfl
    (rankStart id duoHost duoStart 0).s.view (fun _ _ => 0) (fun _ => 1 / 2) 0 rfl
  rw [h1] at h ⊢
  obtain ⟨y, hy, e⟩ := Option.map_eq_some_iff.1 h.symm
  exact ⟨_, y, rfl, hy, e.symm, by rw [h2]; rfl⟩

/-- with energies that differ by at most 1e-30 they may part -/
example : ∃ (ω : ℕ → Reply id duoN duoB 0) (ω' : ℕ → Reply id duoN duoB 1),
    (∀ i < 31, Nearly (1 / 10 ^ 30) (ω i) (ω' i)) ∧ ∃ info x info' x',
      rankRun ω (duoRank 0) (oncePrm (1 / 10 ^ 9) (1 / 2)) 1 (rankStart id duoHost duoStart 0) = some (.ok info, x) ∧
      rankRun ω' (duoRank 1) (oncePrm (1 / 10 ^ 9) (1 / 2)) 1 (rankStart id duoHost duoStart 1) = some (.ok info', x') ∧
      ∃ pre l l', pre.length = 31 ∧ opsCalled x.s = pre ++ .reduce :: l ∧ opsCalled x'.s = pre ++ .gather :: l' :=
  C128_separated (by norm_num) (by norm_num) (by norm_num) duoRank_same (by norm_num [duoRank, localCfg, duoCfg])
    (fun _ _ => ⟨_, rfl⟩) 0 ⟨rfl, rfl⟩

end Nlcg
