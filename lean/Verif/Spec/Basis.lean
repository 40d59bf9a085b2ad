import Verif.Spec.Response
import Verif.Spec.Variational

/-!
# Specification vocabulary: a basis and a part of it
-/

namespace Nlcg.Spec
open Matrix Real

variable {K : ℕ} {n n' b : Fin K → ℕ}

/-- orbitals given in the small basis, written in the large one; column `i` of `J k` is the `i`-th function of the small
basis -/
def embed (J : (k : Fin K) → Mat (n' k) (n k)) (X : Orbitals n b) : Orbitals n' b := fun k => J k * X k

/-- The same system in a small basis (`c`, `E`) and in a large one (`c'`, `E'`) that contains the small one. -/
structure PartOf (c : Cfg n b) (E : Orbitals n b → Bands b → ℝ) (c' : Cfg n' b) (E' : Orbitals n' b → Bands b → ℝ)
    (J : (k : Fin K) → Mat (n' k) (n k)) : Prop where
  t : c'.t = c.t
  T : c'.T = c.T
  mo : c'.mo = c.mo
  wk : c'.wk = c.wk
  occ : c'.occ = c.occ
  S : ∀ k, c.S k = (J k)ᴴ * (c'.S k * J k)
  energy : ∀ X f, E X f = E' (embed J X) f

end Nlcg.Spec
