import Verif.Model.Solver

/-!
# One rank of a parallel run

`Model/Solver.lean` looks at the k-points of all ranks together. Here is what a single rank executes:
the driver of `Model/Driver.lean`, with operations that only touch the k-points of that rank and talk
to the other ranks through collective operations. `own k` is the rank that holds k-point `k`.

A rank is run against a stream `ω` of replies: its `i`-th collective operation gets the reply `ω i`.
Requests and replies are recorded in `log`, which the program never reads except for the position in
the stream. Which replies are right is said in `Spec/Spmd.lean`.

A request stands for a fixed sequence of MPI calls: one `MPI_Allreduce` for `reduce`, the calls of
`mvector::allgather` (`src/la/mvector.hpp:132-272`) for `gather` and `gatherW`, whatever the host
does inside for the others.
-/

namespace Nlcg
open Matrix

variable {K R : ℕ}

/-- the k-points of rank `r` -/
abbrev Mine (own : Fin K → Fin R) (r : Fin R) := { k : Fin K // own k = r }

section
variable (own : Fin K → Fin R) (n b : Fin K → ℕ) (r : Fin R)

/-- orbitals of the k-points of a rank -/
abbrev LOrb := (k : Mine own r) → Mat (n k) (b k)
/-- real numbers for the bands of a rank -/
abbrev LBands := (k : Mine own r) → Fin (b k) → ℝ
/-- square matrices of a rank -/
abbrev LSq := (k : Mine own r) → Mat (b k) (b k)

/-- what a rank can read from the host: `get_C`, `get_hphi`, `get_fn`, `get_ek` -/
structure View where
  C : LOrb own n b r
  hphi : LOrb own n b r
  fn : LBands own b r
  ek : LBands own b r

/-- collective operations, with what the rank contributes -/
inductive Req where
  | setC (X : LOrb own n b r)
  | setFn (f : LBands own b r)
  | compute
  | setMu (mu : ℝ)
  | energy
  | print
  /-- `Communicator::allreduce` with `mpi_op::sum`, `src/mpi/communicator.hpp:198-225` -/
  | reduce (x : ℝ)
  /-- `mvector::allgather` of one array per k-point -/
  | gather (e : LBands own b r)
  /-- `mvector::allgather` of one number per k-point -/
  | gatherW (w : Mine own r → ℝ)

/-- replies -/
inductive Reply where
  /-- the host call has returned (`true`) or thrown; what can be read from the host afterwards -/
  | host (ok : Bool) (v : View own n b r)
  | energy (e : Option ℝ) (v : View own n b r)
  | real (x : ℝ)
  | bands (e : Bands b)
  | weights (w : Fin K → ℝ)

/-- state of a rank: `SState` with the local view of the host, and the record -/
structure RState where
  view : View own n b r
  F : ℝ
  S : ℝ
  log : List (Req own n b r × Reply own n b r)

/-- local part of `Point` -/
structure RPoint where
  X : LOrb own n b r
  ek : LBands own b r
  ul : LSq own b r
  eta : LSq own b r
  fn : LBands own b r
  hx : LOrb own n b r
  mu : ℝ

/-- local part of `Dir` -/
structure RDir where
  zx : LOrb own n b r
  zeta : LSq own b r

/-- local part of `Cfg`; `occ` is the search for the chemical potential, applied to the weights and
band energies of all k-points -/
structure LCfg where
  la : Lapack
  t : SmearType
  T : ℝ
  kappa : ℝ
  mo : ℝ
  wk : Mine own r → ℝ
  S : (k : Mine own r) → Mat (n k) (n k)
  P : (k : Mine own r) → Mat (n k) (n k)
  occ : (Fin K → ℝ) → Bands b → Res (ℝ × Bands b)
  junk : LSq own b r

end

variable {own : Fin K → Fin R} {n b : Fin K → ℕ} {r : Fin R}

/-- a collective operation: the next reply -/
def coll (ω : ℕ → Reply own n b r) (q : Req own n b r) : SM (RState own n b r) (Reply own n b r) :=
  fun s => (.ok (ω s.log.length), { s with log := s.log ++ [(q, ω s.log.length)] })

/-- a reply of the wrong type: the ranks have called different operations -/
def mismatch {β : Type} : SM (RState own n b r) β := SM.lift .ub

/-- a host call without result -/
def hostR (ω : ℕ → Reply own n b r) (q : Req own n b r) : SM (RState own n b r) Unit := do
  match ← coll ω q with
  | .host true v => SM.modify fun s => { s with view := v }
  | .host false v => do
    SM.modify fun s => { s with view := v }
    SM.lift (.throw .runtimeError)
  | _ => mismatch

/-- `energy.get_total_energy()` -/
def energyR (ω : ℕ → Reply own n b r) : SM (RState own n b r) ℝ := do
  match ← coll ω .energy with
  | .energy (some e) v => do
    SM.modify fun s => { s with view := v }
    pure e
  | .energy none v => do
    SM.modify fun s => { s with view := v }
    SM.lift (.throw .runtimeError)
  | _ => mismatch

/-- `commk.allreduce(x, mpi_op::sum)` -/
def reduceR (ω : ℕ → Reply own n b r) (x : ℝ) : SM (RState own n b r) ℝ := do
  match ← coll ω (.reduce x) with
  | .real y => pure y
  | _ => mismatch

/-- `e.allgather(commk)` -/
def gatherR (ω : ℕ → Reply own n b r) (e : LBands own b r) : SM (RState own n b r) (Bands b) := do
  match ← coll ω (.gather e) with
  | .bands y => pure y
  | _ => mismatch

/-- `wk.allgather(commk)` -/
def gatherWR (ω : ℕ → Reply own n b r) (w : Mine own r → ℝ) : SM (RState own n b r) (Fin K → ℝ) := do
  match ← coll ω (.gatherW w) with
  | .weights y => pure y
  | _ => mismatch

/-- `Smearing::fn` on a rank: two gathers, the search, the occupations of the rank's bands,
`src/smearing.hpp:347-409`, `527-544` -/
def occR (ω : ℕ → Reply own n b r) (c : LCfg own n b r) (ek : LBands own b r) :
    SM (RState own n b r) (ℝ × LBands own b r) := do
  let e ← gatherR ω ek
  let w ← gatherWR ω c.wk
  let (mu, f) ← SM.lift (c.occ w e)
  pure (mu, fun k => f k)

/-- contribution of a rank to the entropy, the operand of `sum` in `src/smearing.hpp:676-740` -/
noncomputable def entropyPart (c : LCfg own n b r) (en : LBands own b r) (mu : ℝ) : ℝ :=
  ∑ k : Mine own r, c.wk k * sumFunc (smearFns c.t).entropy (List.ofFn (en k)) mu c.T c.mo

/-- `FreeEnergy::compute(X, fn, en, mu)` on a rank, `src/free_energy.hpp:60-101` -/
noncomputable def evaluateR (ω : ℕ → Reply own n b r) (c : LCfg own n b r) (X : LOrb own n b r)
    (fn en : LBands own b r) (mu : ℝ) : SM (RState own n b r) Unit := do
  hostR ω (.setC X)
  hostR ω (.setFn fn)
  hostR ω .compute
  hostR ω (.setMu mu)
  let etot ← energyR ω
  let sum ← reduceR ω (entropyPart c en mu)
  let s := kB * c.T * (-1 * sum)
  SM.modify fun st => { st with S := s, F := etot + s }

/-- `src/nlcglib.cpp:249`, `271-283`, `295` on a rank -/
noncomputable def setupR (ω : ℕ → Reply own n b r) (c : LCfg own n b r) :
    SM (RState own n b r) (RPoint own n b r) := do
  hostR ω .compute
  let s ← SM.get
  let ek := s.view.ek
  let (mu, fn) ← occR ω c ek
  let s ← SM.get
  let X0 := s.view.C
  evaluateR ω c X0 fn ek mu
  let s ← SM.get
  pure { X := s.view.C, ek := ek, ul := c.junk, eta := fun k => makeDiag (ek k), fn := fn,
         hx := s.view.hphi, mu := mu }

/-- arguments of the direction code for one k-point of the rank -/
def kInR (c : LCfg own n b r) (pt : RPoint own n b r) (v : View own n b r) (k : Mine own r) :
    KIn (n k) (b k) :=
  { X := pt.X k, hx := pt.hx k, e := pt.ek k, f := pt.fn k, hii := v.ek k, S := c.S k, P := c.P k,
    wk := c.wk k }

def dirParamsR (c : LCfg own n b r) (pt : RPoint own n b r) : DirParams :=
  { t := c.t, T := c.T, kappa := c.kappa, mo := c.mo, mu := pt.mu }

/-- `GradEtaHelper::dFdmu` on a rank, `src/pseudo_hamiltonian/grad_eta.hpp:15-50` -/
noncomputable def dFdmuR (ω : ℕ → Reply own n b r) (p : DirParams)
    (ks : (k : Mine own r) → KIn (n k) (b k)) : SM (RState own n b r) ℝ :=
  let kT := kB * p.T
  reduceR ω (∑ k, (∑ i, ((ks k).hii i - (ks k).e i)
    * (smearFns p.t).delta (((ks k).e i - p.mu) / kT) p.mo) * (ks k).wk)

/-- `GradEtaHelper::dmu_deta` on a rank, `src/pseudo_hamiltonian/grad_eta.hpp:58-81` -/
noncomputable def dmuDetaR (ω : ℕ → Reply own n b r) (p : DirParams)
    (ks : (k : Mine own r) → KIn (n k) (b k)) : SM (RState own n b r) ℝ :=
  let kT := kB * p.T
  reduceR ω (∑ k, ∑ i, (smearFns p.t).delta (((ks k).e i - p.mu) / kT) p.mo * (ks k).wk)

/-- `descent_direction::restarted` on a rank, `src/mvp2/descent_direction.hpp:146-183` -/
noncomputable def restartedR (ω : ℕ → Reply own n b r) (c : LCfg own n b r) (pt : RPoint own n b r) :
    SM (RState own n b r) (ℝ × RDir own n b r) := do
  let s ← SM.get
  let p := dirParamsR c pt
  let ks := kInR c pt s.view
  let dF ← dFdmuR ω p ks
  let sumfn ← dmuDetaR ω p ks
  let res := fun k => execSpc c.la p dF sumfn (ks k)
  let fr ← reduceR ω (∑ k, (res k).fr)
  pure (fr, { zx := fun k => (res k).dx, zeta := fun k => (res k).deta })

/-- `descent_direction::conjugated` on a rank, `src/mvp2/descent_direction.hpp:69-144` -/
noncomputable def conjugatedR (ω : ℕ → Reply own n b r) (c : LCfg own n b r) (frOld : ℝ)
    (pt : RPoint own n b r) (old : RDir own n b r) :
    SM (RState own n b r) (ℝ × ℝ × RDir own n b r) := do
  let s ← SM.get
  let p := dirParamsR c pt
  let ks := kInR c pt s.view
  let dF ← dFdmuR ω p ks
  let sumfn ← dmuDetaR ω p ks
  let res := fun k => execSpc c.la p dF sumfn (ks k)
  let con := fun k => execConjugate c.la ((ks k).S * (ks k).X) (old.zx k) (old.zeta k) (pt.ul k)
    (res k).gx (res k).geta
  let fr ← reduceR ω (∑ k, (res k).fr)
  let gamma := fr / frOld
  let slopeZp ← reduceR ω (∑ k, (con k).1)
  let slope := fr + gamma * slopeZp
  pure (fr, slope,
    { zx := fun k => addM (con k).2.1 (res k).dx 1 (gamma : ℂ)
      zeta := fun k => addM (con k).2.2 (res k).deta 1 (gamma : ℂ) })

/-- `eval_threaded` of one task per k-point of the rank, in order of the keys -/
def forMine {β : Mine own r → Type} (f : (k : Mine own r) → Res (β k)) :
    Res ((k : Mine own r) → β k) := do
  let g ← forAllK (β := fun k => (h : own k = r) → β ⟨k, h⟩) fun k =>
    if h : own k = r then do
      let v ← f ⟨k, h⟩
      pure fun _ => v
    else pure fun h' => absurd h' h
  pure fun k => g k k.2

/-- the lambda `g` on a rank, `src/nlcglib.cpp:345-355` -/
noncomputable def geoR (ω : ℕ → Reply own n b r) (c : LCfg own n b r) (pt : RPoint own n b r)
    (dir : RDir own n b r) (t : ℝ) : SM (RState own n b r) (RPoint own n b r) := do
  let g ← SM.lift (forMine fun k =>
    geodesicUs c.la (pt.X k) (pt.eta k) (dir.zx k) (dir.zeta k) (c.S k) t)
  let ek : LBands own b r := fun k => (g k).ek
  let (mu, fn) ← occR ω c ek
  evaluateR ω c (fun k => (g k).X) fn ek mu
  pure { pt with X := fun k => (g k).X, ek := ek, ul := fun k => (g k).ul, mu := mu }

/-- `src/nlcglib.cpp:384-391` on a rank -/
def refreshR (pt : RPoint own n b r) : SM (RState own n b r) (RPoint own n b r) := do
  let s ← SM.get
  pure { pt with eta := fun k => makeDiag (pt.ek k), fn := s.view.fn, hx := s.view.hphi }

/-- the two gathers of `cg_write_step_json`, `src/nlcglib.cpp:119-136` -/
def jsonGatherR (ω : ℕ → Reply own n b r) (pt : RPoint own n b r) : SM (RState own n b r) Unit := do
  let _ ← gatherR ω pt.ek
  let _ ← gatherR ω pt.fn
  pure ()

/-- the operations of the driver on a rank -/
noncomputable def rankOps (ω : ℕ → Reply own n b r) (c : LCfg own n b r) :
    Ops ℝ (RState own n b r) (RPoint own n b r) (RDir own n b r) where
  construct := SM.lift (if c.T = 0 then .throw .runtimeError else .ok ())
  setup := setupR ω c
  restarted := restartedR ω c
  conjugated := conjugatedR ω c
  geo := geoR ω c
  refresh := refreshR
  gather := jsonGatherR ω
  hostPrint := hostR ω .print
  getF := RState.F
  getS := RState.S

/-- `nlcg_us` on rank `r` -/
noncomputable def rankRun (ω : ℕ → Reply own n b r) (c : LCfg own n b r) (prm : NlcgParams ℝ)
    (fuel : ℕ) : FM (NState ℝ (RState own n b r)) (Info ℝ) :=
  nlcg (rankOps ω c) prm fuel r

end Nlcg
