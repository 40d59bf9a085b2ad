import Verif.Spec.NaN
import Verif.Spec.Reduce
import Verif.Model.ZeroWeight

/-!
# K-points of weight zero
-/

namespace Nlcg.Spec
open Arith
variable {α σ ρ δ : Type} [Arith α]

/-- `zero` are the two zeros and `bad` the NaNs of IEEE 754: zero times anything is zero or NaN, what was divided
by zero (a NaN or infinite) times zero is NaN. -/
structure ZeroLaws (zero bad : α → Prop) : Prop extends NaNLaws bad where
  add_left : ∀ a b, bad a → bad (a +ᶠ b)
  add_right : ∀ a b, bad b → bad (a +ᶠ b)
  mul_left : ∀ a b, bad a → bad (a *ᶠ b)
  neg : ∀ a, bad a → bad (Arith.neg a)
  zero_mul : ∀ a b, zero a → zero (a *ᶠ b) ∨ bad (a *ᶠ b)
  div_zero_mul : ∀ x a b, zero a → zero b → bad ((x /ᶠ a) *ᶠ b)

/-- the k-point has bands and weight zero -/
def ZeroWeight (zero : α → Prop) (k : KPoint α) : Prop := zero k.wk ∧ 0 < k.nbands

/-- Each slope the driver gets is computed from k-points of which one has weight zero. -/
structure SlopesWithZero (zero : α → Prop) (kappa : α) (ops : Ops α σ ρ δ) : Prop where
  restarted : ∀ pt s fr dir s', ops.restarted pt s = (.ok (fr, dir), s') →
    ∃ o ranks, Covers o ranks.length ∧ (∃ ks ∈ ranks, ∃ k ∈ ks, ZeroWeight zero k) ∧ frTotal kappa o ranks = .ok fr
  conjugated : ∀ frOld pt d s fr slope dir s', ops.conjugated frOld pt d s = (.ok (fr, slope, dir), s') →
    ∃ o ranks slopeZp, Covers o ranks.length ∧ (∃ ks ∈ ranks, ∃ k ∈ ks, ZeroWeight zero k) ∧
      frTotal kappa o ranks = .ok fr ∧ slope = cgSlope fr frOld slopeZp

end Nlcg.Spec
