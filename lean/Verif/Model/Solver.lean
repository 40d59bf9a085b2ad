import Verif.Model.Driver
import Verif.Model.Descent
import Verif.Model.Geodesic
import Verif.Model.Occupation
import Verif.Model.State

/-!
# The solver with its host

`src/nlcglib.cpp:216-442` with `src/free_energy.hpp`: the operations of the driver (`Ops`) are
composed from the modelled search directions, geodesics and free energy, and from calls into the
host code. All k-points of all ranks are seen together (`k : Fin K`); the arithmetic is exact.

Every call that changes the host, reads its total energy during an evaluation, or prints, is
recorded in `calls`, which the model never reads.
-/

namespace Nlcg
open Matrix

variable {K : ℕ} {n b : Fin K → ℕ}

/-- one matrix per k-point -/
abbrev Orbitals (n b : Fin K → ℕ) := (k : Fin K) → Mat (n k) (b k)

/-- The host as seen through `EnergyBase`, `include/interface.hpp`; `η` is its state. Calls may throw
(`none`); the readers are `get_C`, `get_hphi`, `get_fn`, `get_ek`, `get_chemical_potential`. -/
structure Host (η : Type) (n b : Fin K → ℕ) where
  compute : η → Option Unit × η
  /-- writing through the buffers handed out by `get_C(memory_type::host)` -/
  setC : Orbitals n b → η → Option Unit × η
  setFn : Bands b → η → Option Unit × η
  setMu : ℝ → η → Option Unit × η
  energy : η → Option ℝ × η
  print : η → Option Unit × η
  C : η → Orbitals n b
  hphi : η → Orbitals n b
  fn : η → Bands b
  ek : η → Bands b
  mu : η → ℝ

/-- recorded calls -/
inductive HostCall (n b : Fin K → ℕ) where
  | compute
  | setC (X : Orbitals n b)
  | setFn (f : Bands b)
  | setMu (mu : ℝ)
  | energy
  | print

/-- The host, the members `free_energy`, `entropy` of the `FreeEnergy` object (uninitialised, that is
arbitrary, when it has just been constructed, `src/free_energy.hpp:40-45`), and the record. -/
structure SState (η : Type) (n b : Fin K → ℕ) where
  h : η
  F : ℝ
  S : ℝ
  calls : List (HostCall n b)

/-- parameters of a run; `occ` is `Smearing::fn` (search for the chemical potential and occupations,
`C01`-`C05`, `C63`); `junk` is the uninitialised memory of `empty_like()`,
`src/nlcglib.cpp:302` -/
structure Cfg (n b : Fin K → ℕ) where
  la : Lapack
  t : SmearType
  T : ℝ
  kappa : ℝ
  mo : ℝ
  wk : Fin K → ℝ
  S : (k : Fin K) → Mat (n k) (n k)
  P : (k : Fin K) → Mat (n k) (n k)
  occ : Bands b → Res (ℝ × Bands b)
  junk : (k : Fin K) → Mat (b k) (b k)

/-- `Smearing::fn` with `occupation_from_mvector1`, `src/smearing.hpp:347-544`, `567-631`, seen
globally: the search runs on the union of the k-points of all ranks. The theorem
`searchOcc_distributed` says that this is what `occupationFromMvector` gives on every rank. -/
noncomputable def searchOcc (useNewton : Bool) (t : SmearType) (p : OccParams ℝ) (key : Fin K → Key)
    (wk : Fin K → ℝ) (ek : Bands b) : Res (ℝ × Bands b) := do
  let mu ← (if useNewton then chemPotGatheredNewton (smearFns .gauss) (smearFns t) p.T p.occ p.ne p.tol
    else chemPotGathered (smearFns t) p.T p.occ p.ne p.tol)
    (KMap.ofRange (List.ofFn fun k => (key k, List.ofFn (ek k))))
    (KMap.ofRange (List.ofFn fun k => (key k, wk k)))
  pure (mu, fun k i => (smearFns t).fn ((mu - ek k i) / (kB * p.T)) p.occ)

/-- the variables `X`, `ek`, `ul`, `eta`, `fn`, `Hx`, `mu` of `nlcg_us` -/
structure Point (n b : Fin K → ℕ) where
  X : Orbitals n b
  ek : Bands b
  ul : (k : Fin K) → Mat (b k) (b k)
  eta : (k : Fin K) → Mat (b k) (b k)
  fn : Bands b
  hx : Orbitals n b
  mu : ℝ

variable {η : Type}

/-- a recorded host call; whatever the host throws is `std::runtime_error` here -/
def hostCall {β : Type} (c : HostCall n b) (f : η → Option β × η) : SM (SState η n b) β := fun s =>
  match f s.h with
  | (some r, h') => (.ok r, { s with h := h', calls := s.calls ++ [c] })
  | (none, h') => (.throw .runtimeError, { s with h := h', calls := s.calls ++ [c] })

/-- `FreeEnergy::compute(X, fn, en, mu)`, `src/free_energy.hpp:60-101` -/
noncomputable def evaluate (host : Host η n b) (c : Cfg n b) (X : Orbitals n b) (fn en : Bands b)
    (mu : ℝ) : SM (SState η n b) Unit := do
  hostCall (.setC X) (host.setC X)
  hostCall (.setFn fn) (host.setFn fn)
  hostCall .compute host.compute
  hostCall (.setMu mu) (host.setMu mu)
  let etot ← hostCall .energy host.energy
  let s := entropyTerm c.t c.T c.mo mu (List.ofFn fun k => (c.wk k, List.ofFn (en k)))
  SM.modify fun st => { st with S := s, F := etot + s }

/-- `src/nlcglib.cpp:249`, `271-283`, `295` -/
noncomputable def solverSetup (host : Host η n b) (c : Cfg n b) : SM (SState η n b) (Point n b) := do
  hostCall .compute host.compute
  let s ← SM.get
  let ek := host.ek s.h
  let (mu, fn) ← SM.lift (c.occ ek)
  let s ← SM.get
  let X0 := host.C s.h
  evaluate host c X0 fn ek mu
  let s ← SM.get
  pure { X := host.C s.h, ek := ek, ul := c.junk, eta := fun k => makeDiag (ek k), fn := fn,
         hx := host.hphi s.h, mu := mu }

/-- arguments of the direction code at a point; the band energies `free_energy.get_ek()` are read
from the host, `src/mvp2/descent_direction.hpp:99`, `168` -/
def kIn (host : Host η n b) (c : Cfg n b) (pt : Point n b) (h : η) (k : Fin K) : KIn (n k) (b k) :=
  { X := pt.X k, hx := pt.hx k, e := pt.ek k, f := pt.fn k, hii := host.ek h k, S := c.S k,
    P := c.P k, wk := c.wk k }

/-- smearing parameters of the direction code at a point -/
def dirParams (c : Cfg n b) (pt : Point n b) : DirParams :=
  { t := c.t, T := c.T, kappa := c.kappa, mo := c.mo, mu := pt.mu }

/-- `dd.restarted(...)`, `src/nlcglib.cpp:297`, `396`, `418` -/
noncomputable def solverRestarted (host : Host η n b) (c : Cfg n b) (pt : Point n b) :
    SM (SState η n b) (ℝ × Dir n b) := do
  let s ← SM.get
  pure (restarted c.la (dirParams c pt) (kIn host c pt s.h))

/-- `dd.conjugated(...)`, `src/nlcglib.cpp:405-413` -/
noncomputable def solverConjugated (host : Host η n b) (c : Cfg n b) (fr : ℝ) (pt : Point n b)
    (dir : Dir n b) : SM (SState η n b) (ℝ × ℝ × Dir n b) := do
  let s ← SM.get
  pure (conjugated c.la (dirParams c pt) fr (kIn host c pt s.h) dir pt.ul)

/-- `eval_threaded` of a task per k-point, `src/la/mvector.hpp:426-436`: in order of the keys, the
first exception ends it -/
def forAllK : {K : ℕ} → {β : Fin K → Type} → ((k : Fin K) → Res (β k)) → Res ((k : Fin K) → β k)
  | 0, _, _ => .ok fun k => k.elim0
  | _ + 1, _, f => do
    let a ← f 0
    let r ← forAllK fun k => f k.succ
    pure (Fin.cons a r)

/-- the lambda `g`, `src/nlcglib.cpp:345-355`; the members not returned by it keep their value -/
noncomputable def solverGeo (host : Host η n b) (c : Cfg n b) (pt : Point n b) (dir : Dir n b) (t : ℝ) :
    SM (SState η n b) (Point n b) := do
  let g ← SM.lift (forAllK fun k =>
    geodesicUs c.la (pt.X k) (pt.eta k) (dir.zx k) (dir.zeta k) (c.S k) t)
  let ek : Bands b := fun k => (g k).ek
  let (mu, fn) ← SM.lift (c.occ ek)
  evaluate host c (fun k => (g k).X) fn ek mu
  pure { pt with X := fun k => (g k).X, ek := ek, ul := fun k => (g k).ul, mu := mu }

/-- `src/nlcglib.cpp:384-391` -/
def solverRefresh (host : Host η n b) (pt : Point n b) : SM (SState η n b) (Point n b) := do
  let s ← SM.get
  pure { pt with eta := fun k => makeDiag (pt.ek k), fn := host.fn s.h, hx := host.hphi s.h }

/-- The operations of the driver. The constructors read constants from the host only, and that
of `Smearing` refuses `T = 0`, `src/smearing.hpp:550-565`; the gathers move data between ranks only
(`C36`-`C39`). -/
noncomputable def solverOps (host : Host η n b) (c : Cfg n b) :
    Ops ℝ (SState η n b) (Point n b) (Dir n b) where
  construct := SM.lift (if c.T = 0 then .throw .runtimeError else .ok ())
  setup := solverSetup host c
  restarted := solverRestarted host c
  conjugated := solverConjugated host c
  geo := solverGeo host c
  refresh := solverRefresh host
  gather := fun _ => SM.lift (.ok ())
  hostPrint := hostCall .print host.print
  getF := SState.F
  getS := SState.S

/-- `nlcg_us` -/
noncomputable def solve (host : Host η n b) (c : Cfg n b) (prm : NlcgParams ℝ) (fuel rank : ℕ) :
    FM (NState ℝ (SState η n b)) (Info ℝ) :=
  nlcg (solverOps host c) prm fuel rank

end Nlcg
