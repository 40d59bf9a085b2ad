import Verif.Spec.KPoints
import Verif.Model.Arith
import Verif.Model.Basic

/-!
# Specification vocabulary: charge in an arithmetic without laws, outcome of a rank
-/

namespace Nlcg.Spec
open Arith
variable {α : Type} [Arith α]

/-- Charge of a set of k-points as floating point computes it: for the k-points in the order of
their keys, add weight times (the occupations added one after the other). -/
def chargeInOrder (weights : KMap Key α) (occs : KMap Key (List α)) : α :=
  weights.foldl (fun s e => s +ᶠ (e.2 *ᶠ
    ((match KMap.lookup e.1 occs with
      | some fs => fs
      | none => []).foldl (· +ᶠ ·) (lit 0)))) (lit 0)

/-- the chemical potential (or failure) seen by one rank -/
def muOf {β γ : Type} : Res (β × γ) → Res β
  | .ok p => .ok p.1
  | .throw e => .throw e
  | .ub => .ub
  | .abort => .abort

end Nlcg.Spec
