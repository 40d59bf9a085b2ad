import Verif.Model.ZeroWeight
import Mathlib.Analysis.InnerProductSpace.Basic
import Mathlib.Analysis.Calculus.Deriv.Basic

/-!
# Smooth energies

`Spec.Quadratic` without the assumption that the energy is quadratic.
-/

namespace Nlcg.Spec

/-- a differentiable energy and a positive preconditioner `K` -/
structure Landscape (V : Type) [NormedAddCommGroup V] [InnerProductSpace ℝ V] where
  energy : V → ℝ
  gradient : V → V
  K : V →ₗ[ℝ] V
  deriv : ∀ x d, HasDerivAt (fun t : ℝ => energy (x + t • d)) (inner ℝ (gradient x) d) 0
  posK : ∀ x, x ≠ 0 → 0 < inner ℝ x (K x)

variable {V : Type} [NormedAddCommGroup V] [InnerProductSpace ℝ V]

/-- what the driver calls, for such an energy: the backend remembers the point evaluated last; directions and slopes
as in `src/mvp2/descent_direction.hpp:110-141`, `178-182` -/
noncomputable def Landscape.ops (q : Landscape V) (x0 : V) : Ops ℝ V V V where
  construct s := (.ok (), s)
  setup _ := (.ok x0, x0)
  restarted x s := (.ok (-inner ℝ (q.gradient x) (q.K (q.gradient x)), -q.K (q.gradient x)), s)
  conjugated frOld x z s :=
    let fr := -inner ℝ (q.gradient x) (q.K (q.gradient x))
    (.ok (fr, cgSlope fr frOld (inner ℝ z (q.gradient x)), -q.K (q.gradient x) + (fr / frOld) • z), s)
  geo x z t _ := (.ok (x + t • z), x + t • z)
  refresh x s := (.ok x, s)
  gather _ s := (.ok (), s)
  hostPrint s := (.ok (), s)
  getF s := q.energy s
  getS _ := 0

/-- The energy is curved by at least `m` and at most `L`, measured by the metric `M` that belongs to the preconditioner. -/
structure Landscape.Curved (q : Landscape V) (M : V →ₗ[ℝ] V) (m L : ℝ) : Prop where
  inv : ∀ g, M (q.K g) = g
  pos : ∀ d, d ≠ 0 → 0 < inner ℝ d (M d)
  lower : ∀ x d, m / 2 * inner ℝ d (M d) ≤ q.energy (x + d) - q.energy x - inner ℝ (q.gradient x) d
  upper : ∀ x d, q.energy (x + d) - q.energy x - inner ℝ (q.gradient x) d ≤ L / 2 * inner ℝ d (M d)

end Nlcg.Spec
