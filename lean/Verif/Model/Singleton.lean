import Mathlib.Data.Nat.Notation
import Mathlib.Logic.Function.Basic

/-!
# The only instance of a class

`src/csingleton.hpp`: `GetInstance` called by any number of threads, any number of times, in any order of the
single steps. Trusted: `std::call_once` (C++ standard, [thread.once.callonce]): one thread runs the function,
the others wait; if the function throws, another thread may run it.
-/

namespace Nlcg

/-- `std::once_flag m_onceFlag` -/
inductive OnceFlag where
  | fresh
  | running (t : ℕ)
  | done
  deriving DecidableEq

/-- where a thread is: not in `GetInstance`; before `std::call_once`; in `new T`; before `m_instance.reset`, with
the new object; before leaving the function given to `call_once`; before `return *m_instance.get()` -/
inductive OncePc where
  | idle
  | entered
  | creating
  | created (p : ℕ)
  | stored
  | leaving
  deriving DecidableEq

/-- Shared variables, the threads, and what is needed to state properties: number of objects created, references
handed out, exceptions passed on, null pointer dereferenced. -/
structure OnceState where
  flag : OnceFlag
  inst : Option ℕ
  pc : ℕ → OncePc
  objects : ℕ
  handed : List ℕ
  failures : ℕ
  bad : Bool

/-- before the first call -/
def OnceState.init : OnceState :=
  { flag := .fresh, inst := none, pc := fun _ => .idle, objects := 0, handed := [], failures := 0, bad := false }

/-- One step of thread `t`, `src/csingleton.hpp:27-32`; `throws`: the constructor of `T` throws, should this be the
step that runs it. -/
def onceStep (s : OnceState) (t : ℕ) (throws : Bool) : OnceState :=
  match s.pc t with
  | .idle => { s with pc := Function.update s.pc t .entered }
  | .entered =>
    match s.flag with
    | .fresh => { s with flag := .running t, pc := Function.update s.pc t .creating }
    | .running _ => s
    | .done => { s with pc := Function.update s.pc t .leaving }
  | .creating =>
    if throws then { s with flag := .fresh, pc := Function.update s.pc t .idle, failures := s.failures + 1 }
    else { s with objects := s.objects + 1, pc := Function.update s.pc t (.created s.objects) }
  | .created p => { s with inst := some p, pc := Function.update s.pc t .stored }
  | .stored => { s with flag := .done, pc := Function.update s.pc t .leaving }
  | .leaving =>
    match s.inst with
    | some p => { s with handed := p :: s.handed, pc := Function.update s.pc t .idle }
    | none => { s with bad := true, pc := Function.update s.pc t .idle }

/-- a whole execution: the schedule says which thread moves -/
def onceRun (s : OnceState) (sched : List (ℕ × Bool)) : OnceState :=
  sched.foldl (fun s e => onceStep s e.1 e.2) s

end Nlcg
