import Verif.Model.Deferred

/-! What may happen to a container of deferred computations. -/

namespace Nlcg.Spec

variable {σ β θ : Type}

/-- what a program does: some thread reads the result of a task, or something else happens to memory -/
inductive Act (σ θ : Type) where
  | read (th : θ) (i : ℕ)
  | other (f : σ → σ)

/-- The results of all reads, with their tasks, and the final state, if `get` is what reads. Exceptions are caught. -/
def history (get : θ → ℕ → SM (FState σ β θ) β) : List (Act σ θ) → FState σ β θ → List (ℕ × Res β) × FState σ β θ
  | [], s => ([], s)
  | .read th i :: as, s =>
    let q := get th i s
    let r := history get as q.2
    ((i, q.1) :: r.1, r.2)
  | .other f :: as, s => history get as { s with mem := f s.mem }

/-- all reads in a history -/
def reads : List (Act σ θ) → List (ℕ × θ)
  | [] => []
  | .read th i :: as => (i, th) :: reads as
  | .other _ :: as => reads as

/-- for each task its first read, in order; `seen` are those read before -/
def firstReads : List ℕ → List (ℕ × θ) → List (ℕ × θ)
  | _, [] => []
  | seen, r :: rs => if r.1 ∈ seen then firstReads seen rs else r :: firstReads (r.1 :: seen) rs

/-- one task after the other, until one fails -/
def inOrder : List (SM σ β) → SM σ (List β)
  | [] => pure []
  | t :: ts => do
    let a ← t
    let r ← inOrder ts
    pure (a :: r)

/-- the number of tasks that are begun when they are run one after the other -/
def begun : List (SM σ β) → σ → ℕ
  | [], _ => 0
  | t :: ts, m =>
    match t m with
    | (.ok _, m') => begun ts m' + 1
    | _ => 1

/-- the state before anything happened, with one future per task -/
def fresh (tasks : List (SM σ β)) (m : σ) : FState σ β θ := (defer tasks { mem := m, cells := [], runs := [] }).2

end Nlcg.Spec
