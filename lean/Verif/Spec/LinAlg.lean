import Verif.Model.Descent
import Verif.Model.Geodesic
import Mathlib.LinearAlgebra.Matrix.PosDef
import Mathlib.Analysis.Complex.Order

/-!
# Specification vocabulary: LAPACK contract, constraint, physical input
-/

namespace Nlcg.Spec
open Matrix ComplexOrder

/-- What the LAPACK manual promises: Cholesky succeeds and solves exactly the positive definite
systems and reports failure for the others; the Hermitian eigensolver, when it succeeds, returns an
orthonormal basis of eigenvectors. -/
structure LapackOk (la : Lapack) : Prop where
  chol : ∀ {n : ℕ} (A : Mat n n), (la.potrf A).2 = 0 ↔ A.PosDef
  solve : ∀ {n m : ℕ} (A : Mat n n) (B : Mat n m), A.PosDef →
    A * (la.potrs (la.potrf A).1 B).1 = B
  eigen : ∀ {n : ℕ} (A : Mat n n), A.IsHermitian → (la.heevd A).2 = 0 →
    (la.heevd A).1.2ᴴ * (la.heevd A).1.2 = 1 ∧
      A * (la.heevd A).1.2 = (la.heevd A).1.2 * diagonal fun i => ((la.heevd A).1.1 i : ℂ)

/-- the eigensolver converges on Hermitian input -/
def EighTotal (la : Lapack) : Prop :=
  ∀ {n : ℕ} (A : Mat n n), A.IsHermitian → (la.heevd A).2 = 0

variable {N B : ℕ}

/-- the constraint: `X^H S X = 1` -/
def SOrtho (S : Mat N N) (X : Mat N B) : Prop := Xᴴ * (S * X) = 1

/-- `Z` is tangent to the constraint at `X`: `(S X)^H Z = 0` -/
def Tangent (S : Mat N N) (X Z : Mat N B) : Prop := (S * X)ᴴ * Z = 0

/-- real inner product of two complex matrices: real part of the trace of `A^H B` -/
noncomputable def rdot {m n : ℕ} (A B : Mat m n) : ℝ := (Aᴴ * B).trace.re

/-- Input of the direction code at a point of the constraint: `hx = H X` for a Hermitian `H`, the
host's band energies are the expectation values, overlap and preconditioner are positive definite,
weights are positive. -/
structure Physical (k : KIn N B) (H : Mat N N) : Prop where
  herm : H.IsHermitian
  hx : k.hx = H * k.X
  bands : ∀ i, (k.hii i : ℂ) = (k.Xᴴ * (H * k.X)) i i
  ortho : SOrtho k.S k.X
  prec : k.P.PosDef
  weight : 0 < k.wk

end Nlcg.Spec
