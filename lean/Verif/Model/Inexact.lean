import Verif.Model.Geodesic

/-!
# A step with rounded matrix operations

The same functions of `src/geodesic.hpp` and `src/la/lapack.hpp` as in `Model/Geodesic.lean` and
`Model/LinAlg.lean`, but with the matrix operations as parameters: nothing is known about what they
compute. With the exact operations (`exactOps`) these are the functions modelled there.
-/

namespace Nlcg
open Matrix

/-- The library calls and kernels a step is made of: `add` (`src/la/lapack_cpu.hpp:297-333`), the
overlap operator of the host (`src/operator.hpp`), `inner_` (`src/la/lapack.hpp:232-248`), `eigh`
(`src/la/lapack_cpu.hpp:22-52`), `loewdin_aux` followed by `scale` (`src/la/lapack.hpp:364-372`,
`66-103`), `outer` (`src/la/lapack_cpu.hpp:158-225`) and `transform`
(`src/la/lapack_cpu.hpp:227-294`). -/
structure MatOps where
  add : {m n : ℕ} → Mat m n → Mat m n → ℝ → Mat m n
  apply : {m n : ℕ} → Mat m m → Mat m n → Mat m n
  inner : {r m n : ℕ} → Mat r m → Mat r n → Mat m n
  eigh : {n : ℕ} → Mat n n → Res ((Fin n → ℝ) × Mat n n)
  scaleInvSqrt : {n : ℕ} → Mat n n → (Fin n → ℝ) → Mat n n
  outer : {n : ℕ} → Mat n n → Mat n n → Mat n n
  transform : {r m n : ℕ} → Mat r m → Mat m n → Mat r n

variable {N B : ℕ}

/-- `loewdin(X, SX)`, `src/la/lapack.hpp:400-425` -/
def loewdinR (ops : MatOps) (X SX : Mat N B) : Res (Mat N B) := do
  let M := ops.inner X SX
  let (w, U) ← ops.eigh M
  let M' := ops.scaleInvSqrt U w
  let R := ops.outer M' U
  pure (ops.transform X R)

/-- `local::advance_x` (ultra-soft), `src/geodesic.hpp:86-99` -/
def advanceXR (ops : MatOps) (t : ℝ) (x dx : Mat N B) (ul : Mat B B) (S : Mat N N) : Res (Mat N B) := do
  let x1 := ops.add x dx t
  let x2 ← loewdinR ops x1 (ops.apply S x1)
  pure (ops.transform x2 ul)

/-- `impl::geodesic_us`, `src/geodesic.hpp:152-170` -/
def geodesicR (ops : MatOps) (X : Mat N B) (eta : Mat B B) (zx : Mat N B) (zeta : Mat B B) (S : Mat N N) (t : ℝ) :
    Res (GeoOut N B) := do
  let etaNext := ops.add eta zeta t
  let (ek, ul) ← ops.eigh etaNext
  let xNext ← advanceXR ops t X zx ul S
  pure { ek := ek, ul := ul, X := xNext }

/-- exact operations with the eigensolver of `la` -/
noncomputable def exactOps (la : Lapack) : MatOps where
  add := fun dst src t => addM dst src (t : ℂ)
  apply := fun S X => S * X
  inner := fun A B => innerM A B
  eigh := la.eigh
  scaleInvSqrt := fun U w => scaleCols U (loewdinAux w) 1
  outer := outerM
  transform := transformM

end Nlcg
