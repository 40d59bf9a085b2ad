import Verif.Model.Mvector

/-!
# Sums over all ranks, in any order

`Mpi.allreduceSum` adds in rank order. MPI leaves the order open, so here it is a parameter. The
sums are over a type with an addition that need not be associative, such as `double`.
-/

namespace Nlcg

/-- the order in which an MPI library adds up the values of the ranks (it may depend on the number
of ranks, the network and the implementation) -/
inductive Order where
  | rank (r : ℕ)
  | join (a b : Order)

/-- `MPI_Allreduce` with `MPI_SUM` for one value per rank, `src/mpi/communicator.hpp:198-225`; a rank
that does not exist has no value -/
def Order.reduce {M : Type} [Add M] (xs : List M) : Order → Res M
  | .rank r => match xs[r]? with
    | some x => .ok x
    | none => .ub
  | .join a b => do
    let x ← a.reduce xs
    let y ← b.reduce xs
    pure (x + y)

/-- `sum(x, comm)` for the k-point communicator, `src/la/mvector.hpp:470-485`: each rank adds up its
elements in the order of the keys, then the ranks' sums are added -/
def sumOrder {κ M : Type} [Add M] [Zero M] (o : Order) (locals : List (KMap κ M)) : Res M :=
  o.reduce (locals.map localSum)

end Nlcg
