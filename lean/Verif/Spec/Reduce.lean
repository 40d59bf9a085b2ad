import Verif.Model.Reduce
import Mathlib.Data.Real.Basic
import Mathlib.Data.Int.Log
import Mathlib.Algebra.Order.Round
import Mathlib.Algebra.Order.Archimedean.Real.Basic

/-!
# Rounded addition
-/

namespace Nlcg.Spec

/-- the ranks an order adds up -/
def _root_.Nlcg.Order.ranks : Order → List ℕ
  | .rank r => [r]
  | .join a b => a.ranks ++ b.ranks

/-- the longest chain of additions -/
def _root_.Nlcg.Order.depth : Order → ℕ
  | .rank _ => 0
  | .join a b => max a.depth b.depth + 1

/-- every one of the `P` ranks is added once -/
def Covers (o : Order) (P : ℕ) : Prop := o.ranks.Perm (List.range P)

/-- an addition whose result is off by at most `u` times the exact sum -/
def Rounded (u : ℝ) (add : ℝ → ℝ → ℝ) : Prop := ∀ a b, |add a b - (a + b)| ≤ u * |a + b|

/-- numbers with such an addition -/
structure Fl (add : ℝ → ℝ → ℝ) where
  val : ℝ

instance (add : ℝ → ℝ → ℝ) : Add (Fl add) := ⟨fun a b => ⟨add a.val b.val⟩⟩
instance (add : ℝ → ℝ → ℝ) : Zero (Fl add) := ⟨⟨0⟩⟩

/-- all contributions of all ranks -/
def contributions {κ : Type} {add : ℝ → ℝ → ℝ} (locals : List (KMap κ (Fl add))) : List ℝ :=
  locals.flatten.map fun e => e.2.val

/-- rounding to the nearest number with `p` binary digits -/
noncomputable def nearest (p : ℕ) (x : ℝ) : ℝ :=
  (round (x / 2 ^ (Int.log 2 |x| - p + 1)) : ℝ) * 2 ^ (Int.log 2 |x| - p + 1)

/-- addition of `p`-bit floating point numbers (no overflow) -/
noncomputable def nearestAdd (p : ℕ) (a b : ℝ) : ℝ := nearest p (a + b)

end Nlcg.Spec
