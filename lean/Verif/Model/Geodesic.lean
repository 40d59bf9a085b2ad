import Verif.Model.LinAlg

/-!
# Moving along a direction

`src/geodesic.hpp`, one k-point.
-/

namespace Nlcg
open Matrix
variable {N B : ℕ}

/-- `local::advance_eta`, `src/geodesic.hpp:11-32` -/
def advanceEta (t : ℝ) (eta deta : Mat B B) : Mat B B := addM eta deta (t : ℂ)

/-- `local::advance_x` (ultra-soft), `src/geodesic.hpp:86-99` -/
noncomputable def advanceX (la : Lapack) (t : ℝ) (x dx : Mat N B) (ul : Mat B B) (S : Mat N N) :
    Res (Mat N B) := do
  let x1 := addM x dx (t : ℂ)
  let x2 ← loewdin la x1 (S * x1)
  pure (transformM x2 ul)

/-- result of a step: eigenvalues, eigenvectors, orbitals -/
structure GeoOut (N B : ℕ) where
  ek : Fin B → ℝ
  ul : Mat B B
  X : Mat N B

/-- `impl::geodesic_us`, `src/geodesic.hpp:152-170` -/
noncomputable def geodesicUs (la : Lapack) (X : Mat N B) (eta : Mat B B) (zx : Mat N B)
    (zeta : Mat B B) (S : Mat N N) (t : ℝ) : Res (GeoOut N B) := do
  let etaNext := advanceEta t eta zeta
  let (ek, ul) ← la.eigh etaNext
  let xNext ← advanceX la t X zx ul S
  pure { ek := ek, ul := ul, X := xNext }

end Nlcg
