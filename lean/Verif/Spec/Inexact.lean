import Verif.Model.Inexact
import Verif.Spec.LinAlg
import Mathlib.Analysis.CStarAlgebra.Matrix

/-!
# Specification vocabulary: rounded matrix operations

Norms of matrices are spectral norms.
-/

namespace Nlcg.Spec
open Matrix
open scoped Matrix.Norms.L2Operator

/-- how far the orbitals are from being S-orthonormal -/
noncomputable def orthoError {N B : ℕ} (S : Mat N N) (X : Mat N B) : ℝ := ‖Xᴴ * (S * X) - 1‖

/-- The usual bounds on what rounding does: each operation misses the exact result by at most `eps`
times the norms of its arguments. The eigensolver returns eigenvectors that are unitary up to `eps`,
and eigenvalues and eigenvectors that belong to a matrix close to the one it was given. It reads one
triangle of its argument only, so that deviations from a Hermitian matrix `H` can be amplified by a
factor `gamma`. -/
structure RoundedOps (ops : MatOps) (eps gamma : ℝ) : Prop where
  eps_nonneg : 0 ≤ eps
  gamma_nonneg : 0 ≤ gamma
  add : ∀ {m n : ℕ} (A B : Mat m n) (t : ℝ), ‖ops.add A B t - (A + (t : ℂ) • B)‖ ≤ eps * (‖A‖ + |t| * ‖B‖)
  apply : ∀ {m n : ℕ} (S : Mat m m) (A : Mat m n), ‖ops.apply S A - S * A‖ ≤ eps * (‖S‖ * ‖A‖)
  inner : ∀ {r m n : ℕ} (A : Mat r m) (B : Mat r n), ‖ops.inner A B - Aᴴ * B‖ ≤ eps * (‖A‖ * ‖B‖)
  unitary : ∀ {n : ℕ} (A : Mat n n) (w : Fin n → ℝ) (U : Mat n n), ops.eigh A = .ok (w, U) →
    ‖Uᴴ * U - 1‖ ≤ eps ∧ ‖U * Uᴴ - 1‖ ≤ eps
  eigh : ∀ {n : ℕ} (A H : Mat n n) (w : Fin n → ℝ) (U : Mat n n), H.IsHermitian → ops.eigh A = .ok (w, U) →
    ‖H - U * diagonal (fun i => (w i : ℂ)) * Uᴴ‖ ≤ eps * ‖A‖ + gamma * ‖A - H‖
  scaleInvSqrt : ∀ {n : ℕ} (U : Mat n n) (w : Fin n → ℝ) (r : ℝ), (∀ i, 0 < w i ∧ 1 / √(w i) ≤ r) →
    ‖ops.scaleInvSqrt U w - U * diagonal (fun i => ((1 / √(w i) : ℝ) : ℂ))‖ ≤ eps * (‖U‖ * r)
  outer : ∀ {n : ℕ} (A B : Mat n n), ‖ops.outer A B - A * Bᴴ‖ ≤ eps * (‖A‖ * ‖B‖)
  transform : ∀ {r m n : ℕ} (A : Mat r m) (B : Mat m n), ‖ops.transform A B - A * B‖ ≤ eps * (‖A‖ * ‖B‖)

/-- A history of steps: from `X`, with whatever directions and step lengths, each with its bound on
the size of the step and on how far the direction is from tangent. `P X Z t` is the condition on a step. -/
inductive Steps (ops : MatOps) {N B : ℕ} (S : Mat N N) (P : Mat N B → Mat N B → ℝ → Prop) (X0 : Mat N B) :
    ℕ → Mat N B → Prop
  | start : Steps ops S P X0 0 X0
  | step (i : ℕ) (X : Mat N B) (eta : Mat B B) (zx : Mat N B) (zeta : Mat B B) (t : ℝ) (o : GeoOut N B) :
      Steps ops S P X0 i X → P X zx t → geodesicR ops X eta zx zeta S t = .ok o → Steps ops S P X0 (i + 1) o.X

/-- A step of moderate size: `L` bounds the (squared) size of the moved orbitals, and the direction is
tangent at least roughly. -/
def Moderate {N B : ℕ} (S : Mat N N) (L : ℝ) (X Z : Mat N B) (t : ℝ) : Prop :=
  ‖S‖ * (‖X‖ + |t| * ‖Z‖) ^ 2 ≤ L ∧ |t| * ‖Xᴴ * (S * Z)‖ ≤ 1 / 8

end Nlcg.Spec
