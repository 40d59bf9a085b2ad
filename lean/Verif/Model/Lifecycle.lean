import Verif.Model.Basic

/-!
# Starting and stopping the library

`nlcglib::initialize` and `nlcglib::finalize`, `src/nlcglib.cpp:37-68`, in a process whose host may use Kokkos as well.
Kokkos and MAGMA are external; what the versions of Kokkos do differently is a parameter.
-/

namespace Nlcg

/-- Kokkos: not yet started, running, or stopped -/
inductive Kokkos where
  | off
  | up
  | ended
  deriving DecidableEq, Repr

/-- What a version of Kokkos tolerates. Recent ones tolerate none of the three and abort. -/
structure KokkosRules where
  /-- a second `Kokkos::initialize` while it is running is ignored -/
  twice : Bool
  /-- it may be started again after it was stopped -/
  again : Bool
  /-- `Kokkos::finalize` while it is not running is ignored -/
  stray : Bool

/-- `Kokkos::initialize` -/
def kokkosInit (r : KokkosRules) : Kokkos → Res Kokkos
  | .off => .ok .up
  | .up => if r.twice then .ok .up else .abort
  | .ended => if r.again then .ok .up else .abort

/-- `Kokkos::finalize` -/
def kokkosFinalize (r : KokkosRules) : Kokkos → Res Kokkos
  | .up => .ok .ended
  | k => if r.stray then .ok k else .abort

/-- Kokkos, and the number of times that MAGMA was started more often than stopped -/
structure Runtime where
  kokkos : Kokkos
  magma : Nat
  deriving DecidableEq, Repr

/-- `nlcg_init_magma`, `src/la/magma.cpp:26-30`: MAGMA counts -/
def initMagma (s : Runtime) : Runtime := { s with magma := s.magma + 1 }

/-- `nlcg_finalize_magma`, `src/la/magma.cpp:33-36`: MAGMA returns an error if it is not running, and `TESTING_CHECK` ends the
process -/
def finalizeMagma (s : Runtime) : Res Runtime :=
  if s.magma = 0 then .abort else .ok { s with magma := s.magma - 1 }

/-- `nlcglib::initialize`, `src/nlcglib.cpp:37-59`; `magma` is `__NLCGLIB__MAGMA` -/
def libInitialize (r : KokkosRules) (magma : Bool) (s : Runtime) : Res Runtime :=
  let s := if magma then initMagma s else s
  (kokkosInit r s.kokkos).bind fun k => .ok { s with kokkos := k }

/-- `nlcglib::finalize`, `src/nlcglib.cpp:61-68` -/
def libFinalize (r : KokkosRules) (magma : Bool) (s : Runtime) : Res Runtime :=
  (kokkosFinalize r s.kokkos).bind fun k =>
    let s := { s with kokkos := k }
    if magma then finalizeMagma s else .ok s

/-- Allocation of a view or a parallel loop. Kokkos aborts if it is not running. -/
def useKokkos (s : Runtime) : Res Runtime := if s.kokkos = .up then .ok s else .abort

/-- what happens in the process -/
inductive Action where
  /-- `nlcglib::initialize` -/
  | start
  /-- `nlcglib::finalize` -/
  | stop
  /-- one of the entry points of the solver, `src/nlcglib.cpp:436-655`. It allocates views (`src/nlcglib.cpp:236-300`), neither
  starts nor stops anything, and the host catches what it throws. -/
  | solve
  /-- the host calls `Kokkos::initialize` itself -/
  | hostInitialize
  /-- the host calls `Kokkos::finalize` itself -/
  | hostFinalize
  /-- the host uses Kokkos -/
  | hostUse
  deriving DecidableEq, Repr

/-- one action -/
def act (r : KokkosRules) (magma : Bool) (s : Runtime) : Action → Res Runtime
  | .start => libInitialize r magma s
  | .stop => libFinalize r magma s
  | .solve => useKokkos s
  | .hostInitialize => (kokkosInit r s.kokkos).bind fun k => .ok { s with kokkos := k }
  | .hostFinalize => (kokkosFinalize r s.kokkos).bind fun k => .ok { s with kokkos := k }
  | .hostUse => useKokkos s

/-- a history of the process -/
def live (r : KokkosRules) (magma : Bool) (s : Runtime) : List Action → Res Runtime
  | [] => .ok s
  | a :: l => (act r magma s a).bind fun s' => live r magma s' l

/-- a process that has just begun -/
def newProcess : Runtime := ⟨.off, 0⟩

end Nlcg
