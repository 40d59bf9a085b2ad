import Verif.Model.KMap

/-!
# Specification vocabulary: distributed k-points

A k-point as the user thinks of it, and a distribution of a set of k-points over MPI ranks.
Nothing here refers to the solver's algorithms.
-/

namespace Nlcg.Spec

/-- one (k-point, spin) with its weight and band energies -/
structure KPoint (α : Type) where
  key : Key
  weight : α
  energies : List α

/-- rank `i` owns the k-points in the `i`-th list -/
abbrev Dist (α : Type) := List (List (KPoint α))

variable {α : Type}

/-- the container of band energies stored on each rank -/
def Dist.energies (d : Dist α) : List (KMap Key (List α)) :=
  d.map fun r => r.map fun p => (p.key, p.energies)

/-- the container of weights stored on each rank -/
def Dist.weights (d : Dist α) : List (KMap Key α) :=
  d.map fun r => r.map fun p => (p.key, p.weight)

/-- every k-point is owned by one rank only, and is stored once -/
def Dist.Proper (d : Dist α) : Prop := (d.flatten.map KPoint.key).Nodup

/-- the same k-points, distributed in some other way over possibly another number of ranks -/
def Dist.Same (d d' : Dist α) : Prop := d.flatten.Perm d'.flatten

/-- Total charge of occupations `f` (one container per rank): the sum over all ranks, their
k-points and bands of weight times occupation, in exact arithmetic. -/
def totalCharge [Add α] [Mul α] [Zero α] (d : Dist α) (f : List (KMap Key (List α))) : α :=
  (List.zipWith (fun r fr => (List.zipWith (fun (p : KPoint α) (e : Key × List α) =>
    p.weight * e.2.sum) r fr).sum) d f).sum

end Nlcg.Spec
