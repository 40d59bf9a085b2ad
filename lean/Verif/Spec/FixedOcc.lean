import Verif.Spec.FreeEnergy
import Verif.Model.Solver

/-! The same numbers for every k-point, possibly in another order. -/

namespace Nlcg.Spec

variable {K : ℕ} {b : Fin K → ℕ}

/-- at every k-point `x` has the values of `y`, each as often, in any order -/
def Reordered (x y : Bands b) : Prop := ∀ k, (List.ofFn (x k)).Perm (List.ofFn (y k))

end Nlcg.Spec
