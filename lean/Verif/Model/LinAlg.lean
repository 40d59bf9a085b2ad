import Verif.Model.Basic
import Mathlib.Data.Matrix.Mul
import Mathlib.LinearAlgebra.Matrix.ConjTranspose
import Mathlib.Data.Complex.Basic
import Mathlib.Analysis.Real.Sqrt

/-!
# Dense linear algebra of one k-point

`src/la/lapack.hpp`, `src/la/lapack_cpu.hpp`, `src/la/utils.hpp`: exact complex arithmetic, one
rank per matrix (other layouts throw, see `C42`-`C45` for the memory level). A call that stores
into an argument is a function returning the new value.

Trusted: BLAS/LAPACK do what their manual says; the two LAPACK solvers are parameters (`Lapack`).
-/

namespace Nlcg
open Matrix

abbrev Mat (m n : ℕ) := Matrix (Fin m) (Fin n) ℂ

/-- The LAPACK routines, each with its return code `info` (0: success): `zpotrf` (the array after
the call), `zpotrs` (right-hand side after the call), `zheevd` (eigenvalues and eigenvectors). -/
structure Lapack where
  potrf : {n : ℕ} → Mat n n → Mat n n × Int
  potrs : {n m : ℕ} → Mat n n → Mat n m → Mat n m × Int
  heevd : {n : ℕ} → Mat n n → ((Fin n → ℝ) × Mat n n) × Int

/-- `solve_sym(A, RHS)`: new value of `RHS`; both return codes are dropped,
`src/la/lapack_cpu.hpp:55-86` -/
def Lapack.solve (la : Lapack) {n m : ℕ} (A : Mat n n) (rhs : Mat n m) : Mat n m :=
  let a := la.potrf A
  let r := la.potrs a.1 rhs
  r.1

/-- `eigh(U, w, S)`, `src/la/lapack_cpu.hpp:22-52` -/
def Lapack.eigh (la : Lapack) {n : ℕ} (A : Mat n n) : Res ((Fin n → ℝ) × Mat n n) :=
  let r := la.heevd A
  if r.2 ≠ 0 then .throw .runtimeError else .ok r.1

/-- `inner_()(A, B, alpha)`: `alpha * A^H B`, `src/la/lapack.hpp:232-248`,
`src/la/lapack_cpu.hpp:89-156` -/
def innerM {r m n : ℕ} (A : Mat r m) (B : Mat r n) (alpha : ℂ := 1) : Mat m n := alpha • (Aᴴ * B)

/-- `transform_alloc(A, B)`: `A B`, `src/la/utils.hpp`, `src/la/lapack_cpu.hpp:227-294` -/
def transformM {r m n : ℕ} (A : Mat r m) (B : Mat m n) : Mat r n := A * B

/-- `outer(C, A, B)` with `C` zero: `A B^H`, only for square matrices (the sizes passed to `gemm`
are wrong otherwise, see `C44`), `src/la/lapack_cpu.hpp:158-225` -/
def outerM {n : ℕ} (A B : Mat n n) : Mat n n := A * Bᴴ

/-- `add(dst, src, alpha, beta)`: `dst <- beta * dst + alpha * src`,
`src/la/lapack_cpu.hpp:297-333` -/
def addM {m n : ℕ} (dst src : Mat m n) (alpha : ℂ) (beta : ℂ := 1) : Mat m n :=
  beta • dst + alpha • src

/-- `scale(dst, src, x, alpha, 0)`: column `j` times `alpha * x(j)`, `src/la/lapack.hpp:66-103` -/
def scaleCols {m n : ℕ} (src : Mat m n) (x : Fin n → ℝ) (alpha : ℝ) : Mat m n :=
  fun i j => (alpha : ℂ) * (x j : ℂ) * src i j

/-- `innerh_tr()(X, Y)`: sum of `x_ij * conj(y_ij)`, `src/la/lapack.hpp:250-327` -/
def innerhTr {m n : ℕ} (X Y : Mat m n) : ℂ := ∑ i, ∑ j, X i j * star (Y i j)

/-- `make_diag()(x)`, `src/la/lapack.hpp:39-64` -/
def makeDiag {n : ℕ} (x : Fin n → ℝ) : Mat n n := fun i j => if i = j then (x i : ℂ) else 0

/-- `loewdin_aux`: `w(i) = 1.0 / sqrt(w(i))`, `src/la/lapack.hpp:364-372` -/
noncomputable def loewdinAux {n : ℕ} (w : Fin n → ℝ) : Fin n → ℝ := fun i => 1 / √(w i)

/-- `loewdin(X, SX)`, `src/la/lapack.hpp:400-425` -/
noncomputable def loewdin (la : Lapack) {N B : ℕ} (X SX : Mat N B) : Res (Mat N B) := do
  let M := innerM X SX
  let (w, U) ← la.eigh M
  let M' := scaleCols U (loewdinAux w) 1
  let R := outerM M' U
  pure (transformM X R)

/-- `loewdin(X)`, `src/la/lapack.hpp:374-398` -/
noncomputable def loewdinNC (la : Lapack) {N B : ℕ} (X : Mat N B) : Res (Mat N B) := loewdin la X X

end Nlcg
