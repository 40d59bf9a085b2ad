import Verif.Model.Basic
import Mathlib.Data.Int.Notation
import Mathlib.Data.Nat.Notation

/-!
# The cached environment switch

`src/utils/env.hpp`, for any number of threads. The cache is one atomic variable accessed with
`memory_order_relaxed`: all that C++ guarantees is that the stores to it are totally ordered and that
a thread never reads a store older than one it has read or written before. In particular a load may
return an outdated value. `hist` is the order of the stores, `seen` the position a thread has reached.
-/

namespace Nlcg

/-- position of a thread in `get_skip_newton_efermi` -/
inductive EnvPc where
  /-- not in the function -/
  | idle
  /-- before the first load -/
  | check
  /-- the first load has returned -1 -/
  | getenv
  /-- decided to store this value -/
  | storing (v : ℤ)
  /-- before the last load -/
  | final

structure EnvThread where
  pc : EnvPc
  seen : ℕ
  answers : List Bool

/-- all threads, the stores in their order (the first is the initialisation with -1), and the value of
the environment variable -/
structure EnvState where
  hist : List ℤ
  env : Option String
  thread : ℕ → EnvThread

def envInit (env : Option String) : EnvState := ⟨[-1], env, fun _ => ⟨.idle, 0, []⟩⟩

/-- the value stored, `src/utils/env.hpp:16-26` -/
def envDecision : Option String → ℤ
  | none => 0
  | some s => if s = "0" then 0 else 1

inductive EnvEvent where
  /-- thread `t` calls the function -/
  | call (t : ℕ)
  /-- thread `t` executes its next step; a load returns the `k`-th store -/
  | step (t k : ℕ)
  /-- the process changes its environment -/
  | setenv (e : Option String)

def EnvState.setThread (s : EnvState) (t : ℕ) (th : EnvThread) : EnvState :=
  { s with thread := fun t' => if t' = t then th else s.thread t' }

/-- One step; `none`: not possible in this state. `src/utils/env.hpp:11-30` -/
def envStep (s : EnvState) : EnvEvent → Option EnvState
  | .call t =>
    let th := s.thread t
    match th.pc with
    | .idle => some (s.setThread t { th with pc := .check })
    | _ => none
  | .setenv e => some { s with env := e }
  | .step t k =>
    let th := s.thread t
    match th.pc with
    | .idle => none
    | .check =>
      if th.seen ≤ k then match s.hist[k]? with
        | none => none
        | some v => some (s.setThread t { th with pc := if v = -1 then .getenv else .final, seen := k })
      else none
    | .getenv => some (s.setThread t { th with pc := .storing (envDecision s.env) })
    | .storing v =>
      some ({ s with hist := s.hist ++ [v] }.setThread t { th with pc := .final, seen := s.hist.length })
    | .final =>
      if th.seen ≤ k then match s.hist[k]? with
        | none => none
        | some v =>
          some (s.setThread t { pc := .idle, seen := k, answers := th.answers ++ [decide (v = 1)] })
      else none

/-- a whole execution -/
def envRun (s : EnvState) : List EnvEvent → Option EnvState
  | [] => some s
  | e :: es => match envStep s e with
    | none => none
    | some s' => envRun s' es

end Nlcg
