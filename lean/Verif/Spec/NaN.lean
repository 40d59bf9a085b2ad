import Verif.Model.Driver

/-!
# Numbers that are not numbers

IEEE 754: every comparison with a NaN is false, every operation with a NaN gives a NaN.
-/

namespace Nlcg.Spec
open Arith
variable {α σ ρ δ : Type} [Arith α]

/-- `bad` is a set of NaNs of the arithmetic. -/
structure NaNLaws (bad : α → Prop) : Prop where
  lt_left : ∀ a b, bad a → (a <ᶠ b) = false
  lt_right : ∀ a b, bad b → (a <ᶠ b) = false
  sub_left : ∀ a b, bad a → bad (a -ᶠ b)
  sub_right : ∀ a b, bad b → bad (a -ᶠ b)
  mul_right : ∀ a b, bad b → bad (a *ᶠ b)
  div_left : ∀ a b, bad a → bad (a /ᶠ b)
  div_right : ∀ a b, bad b → bad (a /ᶠ b)
  abs : ∀ a, bad a → bad (Arith.abs a)

/-- Apart from the evaluation of a new point, what the driver calls leaves the free energy alone. -/
structure KeepsEnergy (ops : Ops α σ ρ δ) : Prop where
  refresh : ∀ r s, ops.getF (ops.refresh r s).2 = ops.getF s
  restarted : ∀ pt s, ops.getF (ops.restarted pt s).2 = ops.getF s
  conjugated : ∀ fr pt dir s, ops.getF (ops.conjugated fr pt dir s).2 = ops.getF s
  gather : ∀ pt s, ops.getF (ops.gather pt s).2 = ops.getF s
  hostPrint : ∀ s, ops.getF (ops.hostPrint s).2 = ops.getF s

/-- Evaluating a point at a step that is not a number gives an energy that is not a number. -/
def Absorbs (bad : α → Prop) (G : α → σ → Res ρ × σ) (getF : σ → α) : Prop :=
  ∀ t s r s', bad t → G t s = (.ok r, s') → bad (getF s')

end Nlcg.Spec
