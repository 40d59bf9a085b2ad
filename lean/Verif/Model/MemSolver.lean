import Verif.Model.MemAlgo
import Verif.Model.Solver

/-!
# A whole run in memory

`src/nlcglib.cpp:216-442` with `src/free_energy.hpp` for the host memory space, as in `Model/Solver`, but
with every matrix and vector in memory: the host hands out pointers to buffers of its own, which it may
overwrite or move in every call, the run copies from and to them, new objects come from an allocator and
hold anything, and assignment of a matrix object makes it refer to other memory.

Memory of objects that are no longer referred to at the level of the run (old orbitals and directions)
remains in use here; inside functions it is given back (`withScope`).
-/

namespace Nlcg
noncomputable section

variable {K : ℕ}

/-- The host as seen through `EnergyBase`, `include/interface.hpp`: `η` is its private state, `Mem ℂ` the
memory it shares with the library. A call may throw (`none`). The readers are the pointers handed out by
`get_C`, `get_hphi`, `get_fn`, `get_ek`; vectors have `b k` entries. -/
structure MHost (η : Type) (b : Fin K → ℕ) where
  compute : η → Mem ℂ → Option Unit × η × Mem ℂ
  setFn : Bands b → η → Mem ℂ → Option Unit × η × Mem ℂ
  setMu : ℝ → η → Mem ℂ → Option Unit × η × Mem ℂ
  energy : η → Mem ℂ → Option ℝ × η × Mem ℂ
  print : η → Mem ℂ → Option Unit × η × Mem ℂ
  C : η → Fin K → MView
  hphi : η → Fin K → MView
  fn : η → Fin K → ℕ
  ek : η → Fin K → ℕ

/-- memory, host and the members of the `FreeEnergy` object -/
structure MState (η : Type) where
  mem : Mem ℂ
  h : η
  F : ℝ
  S : ℝ

/-- parameters of a run, see `Cfg` -/
structure MCfg (b : Fin K → ℕ) where
  E : HostEnv
  t : SmearType
  T : ℝ
  kappa : ℝ
  mo : ℝ
  wk : Fin K → ℝ
  S : Fin K → HostOp
  P : Fin K → HostOp
  occ : Bands b → Res (ℝ × Bands b)

/-- the variables `X`, `ek`, `ul`, `eta`, `fn`, `Hx`, `mu` of `nlcg_us` -/
structure PtMem (K : ℕ) where
  X : Fin K → MView
  ek : Fin K → ℕ
  ul : Fin K → MView
  eta : Fin K → MView
  fn : Fin K → ℕ
  hx : Fin K → MView
  mu : ℝ

/-- the variables `z_x`, `z_eta` of `nlcg_us` -/
structure DirMem (K : ℕ) where
  zx : Fin K → MView
  zeta : Fin K → MView

variable {η : Type} {b : Fin K → ℕ}

/-- a program on memory -/
def runMem {β : Type} (p : MemM ℂ β) : SM (MState η) β := fun s => ((p s.mem).1, { s with mem := (p s.mem).2 })

/-- a host call; whatever the host throws is `std::runtime_error` here -/
def onHost {β : Type} (f : η → Mem ℂ → Option β × η × Mem ℂ) : SM (MState η) β := fun s =>
  match f s.h s.mem with
  | (some r, h', m') => (.ok r, { s with h := h', mem := m' })
  | (none, h', m') => (.throw .runtimeError, { s with h := h', mem := m' })

/-- `eval_threaded` of a deferred task per k-point, in order of the keys, `src/la/mvector.hpp:426-436` -/
def mapAll : {K : ℕ} → {β : Fin K → Type} → ((k : Fin K) → MemM ℂ (β k)) → MemM ℂ ((k : Fin K) → β k)
  | 0, _, _ => pure fun k => k.elim0
  | _ + 1, _, f => do
    let a ← f 0
    let r ← mapAll fun k => f k.succ
    pure (Fin.cons a r)

/-- the members `get<i>(ures)` of unzipped results, `src/la/mvector.hpp:530-556` (see `C12` for the
containers) -/
def atAll {β : Type} (xs : List (Fin K × β)) : Res (Fin K → β) := forAllK fun k =>
  match xs.find? fun kx => kx.1 = k with
  | some kx => .ok kx.2
  | none => .ub

/-- the numbers of a vector -/
def readVec (w n : ℕ) : MemM ℂ (Fin n → ℝ) := mapAll fun i => do
  let x ← load (w + i)
  pure x.re

/-- the numbers of a vector per k-point -/
def readBands (b : Fin K → ℕ) (w : Fin K → ℕ) : MemM ℂ (Bands b) := mapAll fun k => readVec (w k) (b k)

/-- a new vector with given numbers -/
def newVec (E : HostEnv) {n : ℕ} (x : Fin n → ℝ) : MemM ℂ ℕ := do
  let w ← E.vec n
  forEach (List.finRange n) fun i => store (w + i) (x i : ℂ)
  pure w

/-- `make_mmvector`: copies of the vectors of the host, `src/la/mvector.hpp:381-410` -/
def fetchBands (E : HostEnv) (b : Fin K → ℕ) (src : Fin K → ℕ) : MemM ℂ (Fin K → ℕ) := mapAll fun k => do
  let dst ← E.vec (b k)
  copyVec dst (src k) (b k)
  pure dst

/-- `copy(X)`, `src/la/mvector.hpp:512-527` -/
def copyAll (E : HostEnv) (X : Fin K → MView) : MemM ℂ (Fin K → MView) := mapAll fun k => copyNew E (X k) (X k)

/-- `tapply(make_diag(), ek)`, `src/nlcglib.cpp:295`, `389` -/
def makeDiagAll (E : HostEnv) (b : Fin K → ℕ) (ek : Fin K → ℕ) : MemM ℂ (Fin K → MView) := mapAll fun k => do
  let m ← SM.get
  makeDiagK E.sch (ek k) (b k) (E.heap.place m (b k * b k))

/-- `Smearing::fn(ek)`: reads `ek`, the occupations are new vectors, `src/smearing.hpp:567-631` -/
def occMem (c : MCfg b) (ek : Fin K → ℕ) : MemM ℂ (ℝ × (Fin K → ℕ)) := do
  let e ← readBands b ek
  let r ← SM.lift (c.occ e)
  let fn ← mapAll fun k => newVec c.E (r.2 k)
  pure (r.1, fn)

/-- the copy of `X` to the buffers of the host, through a new matrix per k-point,
`src/free_energy.hpp:79-89` -/
def writeC (E : HostEnv) (C X : Fin K → MView) : MemM ℂ Unit :=
  forEach (List.finRange K) fun k => withScope (fun _ => ∅) do
    let xh ← copyNew E (X k) (X k)
    deepCopyK E.sch (C k) xh

/-- `FreeEnergy::compute(X, fn, en, mu)`, `src/free_energy.hpp:60-101` -/
def evaluateMem (host : MHost η b) (c : MCfg b) (X : Fin K → MView) (fn en : Fin K → ℕ) (mu : ℝ) :
    SM (MState η) Unit := do
  let f ← runMem (readBands b fn)
  let s ← SM.get
  runMem (writeC c.E (host.C s.h) X)
  onHost (host.setFn f)
  onHost host.compute
  onHost (host.setMu mu)
  let etot ← onHost host.energy
  let e ← runMem (readBands b en)
  let s := entropyTerm c.t c.T c.mo mu (List.ofFn fun k => (c.wk k, List.ofFn (e k)))
  SM.modify fun st => { st with S := s, F := etot + s }

/-- `src/nlcglib.cpp:249`, `271-283`, `295`, `302`; `X0` refers to the buffers of the host -/
def setupMem (host : MHost η b) (c : MCfg b) : SM (MState η) (PtMem K) := do
  onHost host.compute
  let s ← SM.get
  let ek ← runMem (fetchBands c.E b (host.ek s.h))
  let muFn ← runMem (occMem c ek)
  let s ← SM.get
  evaluateMem host c (host.C s.h) muFn.2 ek muFn.1
  let s ← SM.get
  let hx ← runMem (copyAll c.E (host.hphi s.h))
  let s ← SM.get
  let X ← runMem (copyAll c.E (host.C s.h))
  let eta ← runMem (makeDiagAll c.E b ek)
  let ul ← runMem (mapAll fun k => c.E.empty (eta k).rows (eta k).cols (eta k).isLocal)
  pure { X := X, ek := ek, ul := ul, eta := eta, fn := muFn.2, hx := hx, mu := muFn.1 }

/-- arguments of the direction code at a point -/
def kMem (c : MCfg b) (pt : PtMem K) (k : Fin K) : KMem :=
  { X := pt.X k, hx := pt.hx k, e := pt.ek k, f := pt.fn k, S := c.S k, P := c.P k }

/-- the two global numbers: the band energies are copied from the host, the rest is read,
`src/mvp2/descent_direction.hpp:98-100`, `167-169` -/
def globalsMem (host : MHost η b) (c : MCfg b) (pt : PtMem K) (h : η) : MemM ℂ (ℝ × ℝ) :=
  withScope (fun _ => ∅) do
    let he ← fetchBands c.E b (host.ek h)
    let hii ← readBands b he
    let e ← readBands b pt.ek
    pure (dFdmu (smearFns c.t) hii e c.wk pt.mu c.T c.mo, dmuDeta (smearFns c.t) e c.wk pt.mu c.T c.mo)

/-- parameters of the direction code -/
def dirParamsMem (c : MCfg b) (pt : PtMem K) : DirParams :=
  { t := c.t, T := c.T, kappa := c.kappa, mo := c.mo, mu := pt.mu }

/-- `dd.restarted(...)`, `src/nlcglib.cpp:297`, `396`, `418` -/
def solverRestartedMem (host : MHost η b) (c : MCfg b) (pt : PtMem K) : SM (MState η) (ℝ × DirMem K) := do
  let s ← SM.get
  let g ← runMem (globalsMem host c pt s.h)
  let r ← runMem (restartedMem c.E (dirParamsMem c pt) g.1 g.2 (kMem c pt) c.wk)
  let z ← SM.lift (atAll r.dir)
  pure (r.fr, { zx := fun k => (z k).dx, zeta := fun k => (z k).deta })

/-- `dd.conjugated(...)`, `src/nlcglib.cpp:405-413` -/
def solverConjugatedMem (host : MHost η b) (c : MCfg b) (fr : ℝ) (pt : PtMem K) (dir : DirMem K) :
    SM (MState η) (ℝ × ℝ × DirMem K) := do
  let s ← SM.get
  let g ← runMem (globalsMem host c pt s.h)
  let r ← runMem (conjugatedMem c.E (dirParamsMem c pt) g.1 g.2 fr (kMem c pt) c.wk dir.zx dir.zeta pt.ul)
  let z ← SM.lift (atAll r.dir)
  pure (r.fr, r.slope, { zx := fun k => (z k).zx, zeta := fun k => (z k).zeta })

/-- the lambda `g`, `src/nlcglib.cpp:345-355`; the members not returned by it keep their value -/
def solverGeoMem (host : MHost η b) (c : MCfg b) (pt : PtMem K) (dir : DirMem K) (t : ℝ) :
    SM (MState η) (PtMem K) := do
  let xs ← runMem (geodesicAllMem c.E pt.X pt.eta dir.zx dir.zeta c.S t)
  let g ← SM.lift (atAll xs)
  let muFn ← runMem (occMem c fun k => (g k).ek)
  evaluateMem host c (fun k => (g k).X) muFn.2 (fun k => (g k).ek) muFn.1
  pure { pt with X := fun k => (g k).X, ek := fun k => (g k).ek, ul := fun k => (g k).ul, mu := muFn.1 }

/-- `src/nlcglib.cpp:384-391` -/
def solverRefreshMem (host : MHost η b) (c : MCfg b) (pt : PtMem K) : SM (MState η) (PtMem K) := do
  let eta ← runMem (makeDiagAll c.E b pt.ek)
  let s ← SM.get
  let fn ← runMem (fetchBands c.E b (host.fn s.h))
  let hx ← runMem (copyAll c.E (host.hphi s.h))
  pure { pt with eta := eta, fn := fn, hx := hx }

/-- The operations of the driver, see `solverOps`. -/
def memOps (host : MHost η b) (c : MCfg b) : Ops ℝ (MState η) (PtMem K) (DirMem K) where
  construct := SM.lift (if c.T = 0 then .throw .runtimeError else .ok ())
  setup := setupMem host c
  restarted := solverRestartedMem host c
  conjugated := solverConjugatedMem host c
  geo := solverGeoMem host c
  refresh := solverRefreshMem host c
  gather := fun _ => SM.lift (.ok ())
  hostPrint := onHost host.print
  getF := MState.F
  getS := MState.S

/-- `nlcg_us` -/
def solveMem (host : MHost η b) (c : MCfg b) (prm : NlcgParams ℝ) (fuel rank : ℕ) :
    FM (NState ℝ (MState η)) (Info ℝ) :=
  nlcg (memOps host c) prm fuel rank

end
end Nlcg
