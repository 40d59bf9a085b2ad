import Verif.Proofs.Spmd
import Verif.Props.Solver

/-!
# C41, C68: parallel runs

`own k` is the rank that holds k-point `k`. `solve` is the run that sees the k-points of all ranks,
about which the other theorems are; `rankRun` is what a single rank executes.
-/

namespace Nlcg
open Matrix Spec
open scoped ComplexOrder

variable {K R : ℕ} {own : Fin K → Fin R} {n b : Fin K → ℕ} {η : Type}

/-! ## C41 -/

/-- names of the collective operations -/
inductive OpName where
  | setC | setFn | compute | setMu | energy | print | reduce | gather | gatherW
  deriving DecidableEq

/-- the operation that is called -/
def Req.name {r : Fin R} : Req own n b r → OpName
  | .setC _ => .setC
  | .setFn _ => .setFn
  | .compute => .compute
  | .setMu _ => .setMu
  | .energy => .energy
  | .print => .print
  | .reduce _ => .reduce
  | .gather _ => .gather
  | .gatherW _ => .gatherW

/-- In lockstep all ranks call the same sequence of operations. -/
theorem Spec.Lockstep.same_names {host : Host η n b} {h h' : η}
    {L : (r : Fin R) → Transcript own n b r} (hl : Lockstep host h L h') (r r' : Fin R) :
    (L r).map (fun e => e.1.name) = (L r').map fun e => e.1.name := by
  induction hl with
  | nil => rfl
  | step a _ ih =>
    simp only [List.map_cons, ih, List.cons.injEq, and_true]
    cases a <;> rfl

/-- state of rank `r` at the start: nothing has been communicated -/
def rankStart (own : Fin K → Fin R) (host : Host η n b) (w : NState ℝ (SState η n b)) (r : Fin R) :
    NState ℝ (RState own n b r) :=
  { s := { view := view own host w.s.h r, F := w.s.F, S := w.s.S, log := [] }
    file := w.file, info := w.info, force := w.force, trace := w.trace }

/-- the stream starts with the replies of the transcript -/
def Provides {r : Fin R} (ω : ℕ → Reply own n b r) (L : Transcript own n b r) : Prop :=
  ∀ (i : ℕ) (h : i < L.length), ω i = (L[i]).2

/-- **C41.** For every run of the solver that ends there is a parallel run in which all ranks proceed
in lockstep through transcripts `L` to the end: every collective operation is called by all ranks and
answered. All ranks return the same record or throw the same exception, report the same numbers, and
agree with the run that sees all k-points. What a rank does is determined by the replies in its
transcript. The eigensolver must not fail (see C68). -/
theorem C41_lockstep (host : Host η n b) (c : Cfg n b)
    (occ : (Fin K → ℝ) → Bands b → Res (ℝ × Bands b)) (hocc : ∀ e, c.occ e = occ c.wk e)
    (htot : ∀ {m : ℕ} (A : Mat m m), (c.la.heevd A).2 = 0) (prm : NlcgParams ℝ) (fuel : ℕ)
    (w w' : NState ℝ (SState η n b)) (o : Res (Info ℝ))
    (h : solve host c prm fuel 0 w = some (o, w')) :
    ∃ L : (r : Fin R) → Transcript own n b r, Lockstep host w.s.h L w'.s.h ∧
      ∀ r ω, Provides ω (L r) → ∃ v : NState ℝ (RState own n b r),
        rankRun ω (localCfg own c occ r) prm fuel (rankStart own host w r) = some (o, v) ∧
        v.s.log = L r ∧ v.s.view = view own host w'.s.h r ∧ v.s.F = w'.s.F ∧ v.s.S = w'.s.S ∧
        v.info = w'.info ∧ v.trace = w'.trace ∧ (r.val = 0 → v.file = w'.file) := by
  have hs := (spmd_ops (own := own) (host := host) hocc htot).run (g := 0) (rk := fun r => r.val)
    prm fuel w o w' h
  obtain ⟨L, l, hr⟩ := hs
  refine ⟨L, l, fun r ω hp => ?_⟩
  obtain ⟨v, e, hrel, ha⟩ := hr r ω (rankStart own host w r)
    ⟨⟨rfl, rfl, rfl⟩, rfl, rfl, rfl, fun _ => rfl⟩ (fun i hi => by
      show ω (0 + i) = _
      rw [Nat.zero_add]; exact hp i hi)
  have m : o.mapOk (fun x : Info ℝ => x) = o := by cases o <;> rfl
  rw [m] at e
  exact ⟨v, e, ha, hrel.1.1, hrel.1.2.1, hrel.1.2.2, hrel.2.1, hrel.2.2.2.1, hrel.2.2.2.2⟩

/-- the transcripts of `C41_lockstep` have the same sequence of operations on all ranks -/
theorem C41_same_operations {host : Host η n b} {h h' : η} {L : (r : Fin R) → Transcript own n b r}
    (hl : Lockstep host h L h') (r r' : Fin R) :
    (L r).map (fun e => e.1.name) = (L r').map (fun e => e.1.name) ∧ (L r).length = (L r').length := by
  have := hl.same_names r r'
  exact ⟨this, by simpa using congrArg List.length this⟩

/-! ## C68 -/

/-- **C68 (partial).** An exception of the host, of the search for the chemical potential or of the
driver itself ends all ranks with the same exception, after the same operations. -/
theorem C68_other_errors_partial (host : Host η n b) (c : Cfg n b)
    (occ : (Fin K → ℝ) → Bands b → Res (ℝ × Bands b)) (hocc : ∀ e, c.occ e = occ c.wk e)
    (htot : ∀ {m : ℕ} (A : Mat m m), (c.la.heevd A).2 = 0) (prm : NlcgParams ℝ) (fuel : ℕ)
    (w w' : NState ℝ (SState η n b)) (e : Exc)
    (h : solve host c prm fuel 0 w = some (.throw e, w')) :
    ∃ L : (r : Fin R) → Transcript own n b r, Lockstep host w.s.h L w'.s.h ∧
      ∀ r ω, Provides ω (L r) → ∃ v : NState ℝ (RState own n b r),
        rankRun ω (localCfg own c occ r) prm fuel (rankStart own host w r) = some (.throw e, v) ∧
        v.s.log = L r := by
  obtain ⟨L, hl, hr⟩ := C41_lockstep (own := own) host c occ hocc htot prm fuel w w' _ h
  exact ⟨L, hl, fun r ω hp => by obtain ⟨v, h1, h2, -⟩ := hr r ω hp; exact ⟨v, h1, h2⟩⟩

/-- **C68 (refuted).** If in a step the eigensolver fails for a k-point of one rank only, that rank
throws without a further collective operation, whereas any rank whose k-points are fine goes on to
the next one (the gather of the band energies) and waits for the other. -/
theorem C68_not_on_all_ranks (c : Cfg n b) (occ : (Fin K → ℝ) → Bands b → Res (ℝ × Bands b))
    (pt : Point n b) (dir : Dir n b) (t : ℝ) (bad good : Fin R)
    (hbad : ∃ k, own k = bad ∧ ∀ g,
      geodesicUs c.la (pt.X k) (pt.eta k) (dir.zx k) (dir.zeta k) (c.S k) t ≠ .ok g)
    (hgood : ∀ k, own k = good → ∃ g,
      geodesicUs c.la (pt.X k) (pt.eta k) (dir.zx k) (dir.zeta k) (c.S k) t = .ok g) :
    (∀ ω x, (geoR ω (localCfg own c occ bad) (ptLoc own bad pt) (dirLoc own bad dir) t x).2 = x ∧
      ∀ y, (geoR ω (localCfg own c occ bad) (ptLoc own bad pt) (dirLoc own bad dir) t x).1 ≠ .ok y) ∧
    ∃ e, ∀ ω x, (x.log ++ [(Req.gather e, ω x.log.length)]) <+:
      (geoR ω (localCfg own c occ good) (ptLoc own good pt) (dirLoc own good dir) t x).2.log := by
  constructor
  · intro ω x
    obtain ⟨k, hk, h⟩ := hbad
    have hn : ∀ g, (forMine fun k : Mine own bad => geodesicUs c.la (pt.X k) (pt.eta k) (dir.zx k)
        (dir.zeta k) (c.S k) t) ≠ .ok g := fun g hg => h _ (forMine_eq_ok hg ⟨k, hk⟩)
    have e : geoR ω (localCfg own c occ bad) (ptLoc own bad pt) (dirLoc own bad dir) t
        = SM.lift (forMine fun k : Mine own bad => geodesicUs c.la (pt.X k) (pt.eta k) (dir.zx k)
        (dir.zeta k) (c.S k) t) >>= _ := rfl
    rw [e]
    generalize (forMine fun k : Mine own bad => geodesicUs c.la (pt.X k) (pt.eta k) (dir.zx k)
        (dir.zeta k) (c.S k) t) = a at hn
    cases a with
    | ok g => exact absurd rfl (hn g)
    | throw e => exact ⟨rfl, fun y h => by cases h⟩
    | ub => exact ⟨rfl, fun y h => by cases h⟩
    | abort => exact ⟨rfl, fun y h => by cases h⟩
  · choose g hg using hgood
    refine ⟨fun k : Mine own good => (g k k.2).ek, fun ω x => ?_⟩
    have e : geoR ω (localCfg own c occ good) (ptLoc own good pt) (dirLoc own good dir) t
        = SM.lift (forMine fun k : Mine own good => geodesicUs c.la (pt.X k) (pt.eta k) (dir.zx k)
        (dir.zeta k) (c.S k) t) >>= _ := rfl
    rw [e, forMine_ok (g := fun k : Mine own good => g k k.2) fun k => hg k k.2]
    exact (Starts.occR (localCfg own c occ good) fun k : Mine own good => (g k k.2).ek).bind
      (fun y => (Grows.evaluateR _ _ _ _ _).bind fun _ => Grows.pure _) x

/-! ## The assumptions can be met

Two k-points on two ranks, each with two plane waves and one band, as in `Props/Solver.lean`. -/

/-- a LAPACK that keeps its contract and never reports a failure of the eigensolver -/
noncomputable def steadyLapack : Lapack :=
  { potrf := refLapack.potrf, potrs := refLapack.potrs, heevd := fun A => ((refEigh A).1, 0) }

theorem steadyLapack_ok : LapackOk steadyLapack where
  chol := refLapack_ok.chol
  solve := refLapack_ok.solve
  eigen A hA _ := refLapack_ok.eigen A hA (refLapack_total A hA)

abbrev duoN : Fin 2 → ℕ := fun _ => 2
abbrev duoB : Fin 2 → ℕ := fun _ => 1

noncomputable def duoH : (k : Fin 2) → Mat (duoN k) (duoN k) := fun _ => demoH 0

noncomputable def duoHost : Host (LState duoN duoB) duoN duoB := linearHost duoH fun _ => 1 / 2

noncomputable def duoCfg : Cfg duoN duoB :=
  { la := steadyLapack, t := .gauss, T := 300, kappa := 3 / 10, mo := 2, wk := fun _ => 1 / 2,
    S := fun _ => 1, P := fun _ => 1, occ := fun ek => .ok (0, occs .gauss 300 2 ek 0),
    junk := fun _ => 0 }

noncomputable def duoStart : NState ℝ (SState (LState duoN duoB) duoN duoB) :=
  { s := { h := { C := fun _ => !![1; 0], hphi := fun _ => 0, fn := fun _ _ => 0, ek := fun _ _ => 0, mu := 0 },
           F := 0, S := 0, calls := [] },
    file := [], info := { vals := none, converged := false }, force := false, trace := [] }

/-- the run of the demo ends -/
theorem duo_ends (prm : NlcgParams ℝ) (htol : 0 < prm.tol) : ∃ fuel o w',
    solve duoHost duoCfg prm fuel 0 duoStart = some (o, w') := by
  have hset : Setting duoHost duoCfg :=
    { host := linearHost_ok _ (fun k => (demoH_psd 0).isHermitian) _
      lapack := steadyLapack_ok
      overlap := fun _ => PosSemidef.one
      prec := fun _ => PosDef.one
      weights := fun _ => by norm_num [duoCfg]
      occ := by rintro ek mu f ⟨⟩; rfl }
  have hen : EnergyOf duoHost duoCfg (linearEnergy duoH fun _ => 1 / 2) :=
    linearHost_energy duoH duoCfg (by rintro ek ek' mu mu' f f' - ⟨⟩ ⟨⟩; rfl)
  have hst : SStart duoHost duoCfg duoStart.s := by
    refine ⟨rfl, fun k => ?_⟩
    show (!![(1 : ℂ); 0])ᴴ * ((1 : Mat 2 2) * !![(1 : ℂ); 0]) = 1
    ext i j; fin_cases i; fin_cases j; simp [mul_apply]
  obtain ⟨N, hN⟩ := C30_run_ends_solver (w := duoStart) (prm := prm) hset hen hst
    (by norm_num [duoCfg]) 0 (fun X f h => by
      obtain ⟨-, e, mu, rfl⟩ := h
      refine linearEnergy_nonneg duoH (fun _ => demoH_psd 0) _ (fun _ => by norm_num) X _ fun k i => ?_
      exact (C06_occupation_bounds .gauss (by simp [Monotonic]) _ 2 (by norm_num)).1) htol
  rcases hq : solve duoHost duoCfg prm N 0 duoStart with _ | ⟨o, w'⟩
  · exact absurd hq (hN N (le_refl _) 0)
  · exact ⟨N, o, w', hq⟩

/-- two ranks, one k-point each: a run that ends, hence transcripts of both ranks -/
example (prm : NlcgParams ℝ) (htol : 0 < prm.tol) : ∃ fuel o w',
    solve duoHost duoCfg prm fuel 0 duoStart = some (o, w') ∧
    ∃ L : (r : Fin 2) → Transcript (id : Fin 2 → Fin 2) duoN duoB r,
      Lockstep duoHost duoStart.s.h L w'.s.h ∧ (L 0).length = (L 1).length := by
  obtain ⟨N, o, w', hq⟩ := duo_ends prm htol
  obtain ⟨L, hl, -⟩ := C41_lockstep (own := (id : Fin 2 → Fin 2)) duoHost duoCfg
    (fun _ ek => .ok (0, occs .gauss 300 2 ek 0)) (fun _ => rfl) (fun _ => rfl) prm N duoStart w' o hq
  exact ⟨N, o, w', hq, L, hl, (C41_same_operations hl 0 1).2⟩

/-- a run that ends with an exception: the chemical potential is not found -/
example (prm : NlcgParams ℝ) (fuel : ℕ) : ∃ w',
    solve duoHost { duoCfg with occ := fun _ => .throw .runtimeError } prm fuel 0 duoStart
      = some (.throw .runtimeError, w') := by
  have gen : ∀ c : Cfg duoN duoB, c.T ≠ 0 → (∀ e, c.occ e = .throw .runtimeError) →
      ∃ w', solve duoHost c prm fuel 0 duoStart = some (.throw .runtimeError, w') := fun c hT ho => by
    have hc : ∀ s, (solverOps duoHost c).construct s = (.ok (), s) := fun s => by simp [solverOps, hT]
    have hs : ∀ s, ∃ s', (solverOps duoHost c).setup s = (.throw .runtimeError, s') := fun s => by
      refine ⟨(solverSetup duoHost c s).2, Prod.ext ?_ rfl⟩
      show (SM.bind (SM.lift (c.occ _)) _ _).1 = _
      rw [ho]
      rfl
    obtain ⟨s', h⟩ := hs duoStart.s
    refine ⟨{ duoStart with s := s' }, ?_⟩
    simp only [solve, nlcg, FM.bind_apply, FM.modify_apply, liftOp, hc, h]
    rfl
  exact gen _ (by norm_num [duoCfg]) fun _ => rfl

/-- streams that provide a given transcript exist -/
example (r : Fin R) (L : Transcript own n b r) : ∃ ω, Provides ω L := by
  refine ⟨fun i => if h : i < L.length then (L[i]).2 else .real 0, fun i h => dif_pos h⟩

/-- an eigensolver that fails for one matrix -/
noncomputable def pickyLapack : Lapack := by
  classical
  exact { potrf := refLapack.potrf, potrs := refLapack.potrs,
          heevd := fun {m} A => ((refEigh A).1, if ∃ i, A i i = -1 then 1 else 0) }

/-- it fails on rank 1 only: rank 1 throws, rank 0 waits -/
example : ∃ (c : Cfg duoN duoB) (pt : Point duoN duoB) (dir : Dir duoN duoB),
    (∃ k, (id : Fin 2 → Fin 2) k = 1 ∧ ∀ g,
      geodesicUs c.la (pt.X k) (pt.eta k) (dir.zx k) (dir.zeta k) (c.S k) 1 ≠ .ok g) ∧
    ∀ k, (id : Fin 2 → Fin 2) k = 0 → ∃ g,
      geodesicUs c.la (pt.X k) (pt.eta k) (dir.zx k) (dir.zeta k) (c.S k) 1 = .ok g := by
  have bad : ∀ A : Mat 1 1, A 0 0 = -1 → pickyLapack.eigh A = .throw .runtimeError := fun A h => by
    have : ∃ i, A i i = -1 := ⟨0, h⟩
    simp [Lapack.eigh, pickyLapack, this]
  have good : ∀ A : Mat 1 1, A 0 0 ≠ -1 → pickyLapack.eigh A = .ok (refEigh A).1 := fun A h => by
    have : ¬ ∃ i, A i i = -1 := fun ⟨i, hi⟩ => h (by rwa [Fin.fin_one_eq_zero i] at hi)
    simp [Lapack.eigh, pickyLapack, this]
  refine ⟨{ duoCfg with la := pickyLapack },
    { X := fun _ => !![1; 0], ek := fun _ _ => 0, ul := fun _ => 0, eta := fun k => if k = 0 then 0 else -1,
      fn := fun _ _ => 0, hx := fun _ => 0, mu := 0 },
    { zx := fun _ => 0, zeta := fun _ => 0 }, ⟨1, rfl, fun g h => ?_⟩, ?_⟩
  · have e := bad (advanceEta 1 (-1) 0) (by simp [advanceEta, addM])
    simp only [geodesicUs] at h
    have e' : pickyLapack.eigh (advanceEta 1 (if (1 : Fin 2) = 0 then (0 : Mat 1 1) else -1) 0)
      = .throw .runtimeError := e
    rw [e'] at h
    cases h
  · rintro k rfl
    have e1 : pickyLapack.eigh (advanceEta 1 (if (0 : Fin 2) = 0 then (0 : Mat 1 1) else -1) 0) = _ :=
      good _ (by simp [advanceEta, addM])
    have e2 : ∀ Y SY : Mat 2 1, innerM Y SY 1 0 0 ≠ -1 → ∃ Z, loewdin pickyLapack Y SY = .ok Z :=
      fun Y SY h => ⟨_, by rw [loewdin, good _ h]; rfl⟩
    obtain ⟨Z, hZ⟩ := e2 (addM !![1; 0] 0 ((1 : ℝ) : ℂ)) ((1 : Mat 2 2) * (addM !![1; 0] 0 ((1 : ℝ) : ℂ)))
      (by norm_num [innerM, addM, mul_apply, Fin.sum_univ_two])
    let a := (refEigh (advanceEta 1 (if (0 : Fin 2) = 0 then (0 : Mat 1 1) else -1) 0)).1
    refine ⟨{ ek := a.1, ul := a.2, X := transformM Z a.2 }, ?_⟩
    show (pickyLapack.eigh (advanceEta 1 (if (0 : Fin 2) = 0 then (0 : Mat 1 1) else -1) 0) >>= _) = _
    rw [e1, Res.bind_ok]
    show ((loewdin pickyLapack (addM !![1; 0] 0 ((1 : ℝ) : ℂ)) ((1 : Mat 2 2) * (addM !![1; 0] 0 ((1 : ℝ) : ℂ))) >>= _) >>= _) = _
    rw [hZ]
    rfl

end Nlcg
