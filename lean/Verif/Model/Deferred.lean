import Verif.Model.OpSolver

/-!
# Deferred computations

`tapply_async` gives one `std::shared_future` per k-point, made by `std::async(std::launch::deferred, ...)`, and `tapply`
one `std::function`; both are computed by `eval`. `src/la/utils.hpp:193-250`, `src/traits.hpp:74-100`,
`src/la/mvector.hpp:425-446`. How the arguments are bound is `tapplyBind` (`Verif/Model/Mvector.lean`); here a task is what
has been bound. Views are bound as references to memory, so a task computes with what is in memory (`σ`) when it runs.
-/

namespace Nlcg

variable {σ β θ : Type}

/-- the shared state of a `std::shared_future` made with `std::launch::deferred` -/
inductive Future (σ β : Type) where
  | pending (task : SM σ β)
  | ready (r : Res β)

/-- All else in the process, the shared states of the futures (a future is a number), and a record of which task has been
run by which thread, which the model never reads. -/
structure FState (σ β θ : Type) where
  mem : σ
  cells : List (Future σ β)
  runs : List (ℕ × θ)

/-- `tapply_async`, `src/la/utils.hpp:234-250`: one future per task; nothing is run -/
def defer (tasks : List (SM σ β)) (s : FState σ β θ) : List ℕ × FState σ β θ :=
  ((List.range tasks.length).map (s.cells.length + ·), { s with cells := s.cells ++ tasks.map .pending })

/-- `eval` of a future by thread `th`: `x.get()`, `src/traits.hpp:86-100`. The first one runs the task, in the same thread, and
keeps its value or exception for all others. -/
def getFuture (th : θ) (i : ℕ) : SM (FState σ β θ) β := fun s =>
  match s.cells[i]? with
  | none => (.ub, s)
  | some (.ready r) => (r, s)
  | some (.pending task) =>
    ((task s.mem).1,
     { mem := (task s.mem).2, cells := s.cells.set i (.ready (task s.mem).1), runs := s.runs ++ [(i, th)] })

/-- `eval` of number `i` of a container of `std::function`s, made by `tapply`, `src/la/utils.hpp:193-206`: `x()`,
`src/traits.hpp:79-84` -/
def callFunction (tasks : List (SM σ β)) (th : θ) (i : ℕ) : SM (FState σ β θ) β := fun s =>
  match tasks[i]? with
  | none => (.ub, s)
  | some task => ((task s.mem).1, { s with mem := (task s.mem).2, runs := s.runs ++ [(i, th)] })

/-- `eval_threaded`, `src/la/mvector.hpp:425-436`: in the order of the keys -/
def evalAll (th : θ) : List ℕ → SM (FState σ β θ) (List β)
  | [] => pure []
  | i :: is => do
    let a ← getFuture th i
    let r ← evalAll th is
    pure (a :: r)

end Nlcg
