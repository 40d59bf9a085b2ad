import Verif.Model.Mpi

/-!
# Element-wise application and reductions over k-points

`src/la/utils.hpp:193-250`, `src/la/mvector.hpp:425-587`, `src/la/lapack.hpp:330-349`.
-/

namespace Nlcg
variable {κ β γ δ : Type} [LinearOrder κ]

/-- `get_key(container)` for all further containers: `container.at(key)`,
`src/la/utils.hpp:201`, `243`. -/
def argsAt (k : κ) : List (KMap κ γ) → Res (List γ)
  | [] => .ok []
  | m :: ms => do
    let v ← (match KMap.lookup k m with
      | some v => .ok v
      | none => .throw .outOfRange : Res γ)
    let vs ← argsAt k ms
    pure (v :: vs)

/-- `tapply` / `tapply_async`, `src/la/utils.hpp:193-206`, `235-250`: for each key of the first
container bind the arguments found under that key (the call is deferred). The further containers
are modelled with one element type. -/
def tapplyBind (args : List (KMap κ γ)) : KMap κ β → Res (KMap κ (β × List γ))
  | [] => .ok []
  | (k, x) :: m => do
    let as ← argsAt k args
    let rest ← tapplyBind args m
    pure ((k, (x, as)) :: rest)

/-- `eval_threaded`, `src/la/mvector.hpp:425-436`: call the bound functions in key order and store
the results with `result[key] = ..`. Also returns the list of argument tuples the function has been
called with. An exception of the function ends the loop. -/
def evalThreaded (f : β → List γ → Res δ) :
    KMap κ (β × List γ) → KMap κ δ → Res (KMap κ δ) × List (β × List γ)
  | [], acc => (.ok acc, [])
  | (k, a) :: m, acc =>
    match f a.1 a.2 with
    | .ok y =>
      let r := evalThreaded f m (KMap.set k y acc)
      (r.1, a :: r.2)
    | .throw e => (.throw e, [a])
    | .ub => (.ub, [a])
    | .abort => (.abort, [a])

/-- `eval_threaded(tapply(f, x, args...))` with the trace of calls. -/
def tapplyEval (f : β → List γ → Res δ) (x : KMap κ β) (args : List (KMap κ γ)) :
    Res (KMap κ δ) × List (β × List γ) :=
  match tapplyBind args x with
  | .ok m => evalThreaded f m []
  | .throw e => (.throw e, [])
  | .ub => (.ub, [])
  | .abort => (.abort, [])

/-- `unzip` of a container of pairs, `src/la/mvector.hpp:530-587` (tuples of more components are
nested pairs). -/
def unzip2 (m : KMap κ (β × γ)) : KMap κ β × KMap κ γ :=
  m.foldl (fun u e => (KMap.set e.1 e.2.1 u.1, KMap.set e.1 e.2.2 u.2)) ([], [])

/-- The communicators a container can carry: `MPI_COMM_SELF` (the default) or the k-point
communicator. `src/mpi/communicator.hpp:31`, `src/la/mvector.hpp:34-35`. -/
inductive Comm where
  | self
  | k
  deriving DecidableEq

/-- `Communicator::size`, with `n` ranks in the k-point communicator. -/
def Comm.size (n : Nat) : Comm → Nat
  | .self => 1
  | .k => n

variable {M : Type} [Add M] [Zero M]

/-- the loop `for (auto& elem: x) sum += eval(elem.second)`, `src/la/mvector.hpp:479-482`. -/
def localSum (m : KMap κ M) : M := m.foldl (fun s e => s + e.2) 0

/-- `sum(x, comm)` executed by all ranks, `src/la/mvector.hpp:470-485`. `own` is the communicator
of the container, `comm = none` stands for `MPI_COMM_NULL` (the default argument). -/
def sumMv (own : Comm) (comm : Option Comm) (locals : List (KMap κ M)) : Res (List M) :=
  let c := match comm with
    | none => own
    | some c => c
  if c.size locals.length < own.size locals.length then .throw .runtimeError
  else
    let ls := locals.map localSum
    match c with
    | .self => .ok ls
    | .k => .ok (allreduceSum ls)

/-- `innerh_reduce` (and the radicand of `l2norm`), `src/la/lapack.hpp:330-349`, given the local
inner products: `sum(eval_threaded(..))`, and the result of `eval_threaded` carries the default
communicator. -/
def innerhReduce (locals : List (KMap κ M)) : Res (List M) := sumMv .self none locals

end Nlcg
