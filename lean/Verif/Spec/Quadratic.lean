import Verif.Model.ZeroWeight
import Mathlib.Analysis.InnerProductSpace.Basic
import Mathlib.LinearAlgebra.FiniteDimensional.Defs
import Mathlib.LinearAlgebra.FiniteDimensional.Lemmas

/-!
# Quadratic energies

Near a minimum every smooth energy looks like `E(x) = ⟪x, A x⟫ / 2 - ⟪b, x⟫ + c`.
-/

namespace Nlcg.Spec

/-- a quadratic energy with a unique minimum, and a positive preconditioner `K` -/
structure Quadratic (V : Type) [NormedAddCommGroup V] [InnerProductSpace ℝ V] where
  A : V →ₗ[ℝ] V
  K : V →ₗ[ℝ] V
  b : V
  c : ℝ
  symA : ∀ x y, inner ℝ (A x) y = inner ℝ x (A y)
  symK : ∀ x y, inner ℝ (K x) y = inner ℝ x (K y)
  posA : ∀ x, x ≠ 0 → 0 < inner ℝ x (A x)
  posK : ∀ x, x ≠ 0 → 0 < inner ℝ x (K x)

variable {V : Type} [NormedAddCommGroup V] [InnerProductSpace ℝ V]

noncomputable def Quadratic.energy (q : Quadratic V) (x : V) : ℝ :=
  inner ℝ x (q.A x) / 2 - inner ℝ q.b x + q.c

def Quadratic.gradient (q : Quadratic V) (x : V) : V := q.A x - q.b

/-- what the driver calls, for such an energy: the backend remembers the point evaluated last; directions and slopes
as in `src/mvp2/descent_direction.hpp:110-141`, `178-182` -/
noncomputable def Quadratic.ops (q : Quadratic V) (x0 : V) : Ops ℝ V V V where
  construct s := (.ok (), s)
  setup _ := (.ok x0, x0)
  restarted x s := (.ok (-inner ℝ (q.gradient x) (q.K (q.gradient x)), -q.K (q.gradient x)), s)
  conjugated frOld x z s :=
    let fr := -inner ℝ (q.gradient x) (q.K (q.gradient x))
    (.ok (fr, cgSlope fr frOld (inner ℝ z (q.gradient x)), -q.K (q.gradient x) + (fr / frOld) • z), s)
  geo x z t _ := (.ok (x + t • z), x + t • z)
  refresh x s := (.ok x, s)
  gather _ s := (.ok (), s)
  hostPrint s := (.ok (), s)
  getF s := q.energy s
  getS _ := 0

end Nlcg.Spec
