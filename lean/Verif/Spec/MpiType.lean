import Verif.Model.MpiType

/-!
# What it means that objects arrive
-/

namespace Nlcg

/-- layouts of a real platform: alignments are positive and sizes are multiples of them -/
def Spec.Layout : CType → Prop
  | .basic s a => 0 < s ∧ 0 < a ∧ a ∣ s
  | .pair a b => Spec.Layout a ∧ Spec.Layout b

/-- no pair inside has a gap in front of its second member -/
def Spec.NoGap : CType → Prop
  | .basic _ _ => True
  | .pair a b => Spec.NoGap a ∧ Spec.NoGap b ∧ b.align ∣ a.size

/-- `n` objects of type `t` in a buffer have arrived: every byte of their values is the one that was sent -/
def Spec.Arrived {β : Type} (t : CType) (n : ℕ) (src new : ℕ → β) : Prop :=
  ∀ i < n, ∀ d ∈ t.value, new (i * t.size + d) = src (i * t.size + d)

end Nlcg
