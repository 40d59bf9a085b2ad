import Verif.Model.Float
import Verif.Spec.Reduce

/-!
Rounding to nearest, as far as the end of the searches depends on it, and the numbers of a format.
-/

namespace Nlcg.Spec
open Nlcg

/-- A positive number is enlarged by at most the relative distance `u` between 1 and the number of the format just
below it (plus a bit far below the numbers that matter, for underflow); it is not reduced to less than a half; the sign
is respected; 1 is a number of the format. True of doubles with `u = 2 ^ (-53)` if rounding is to nearest, not if it is
upward. -/
structure NoStall (r : Rounding) (u : ℝ) : Prop where
  u_pos : 0 < u
  u_le : u ≤ 1 / 2
  up : ∀ x, 0 ≤ x → r.rnd x ≤ (1 + u) * x + u ^ 2 / 10 ^ 9
  down : ∀ x, 1 / 10 ^ 9 ≤ x → x / 2 ≤ r.rnd x
  nonpos : ∀ x, x ≤ 0 → r.rnd x ≤ 0
  one : r.rnd 1 = 1
  below : ∀ x, r.rnd x = x → x < 1 → x ≤ 1 - u
  huge : 10 ≤ r.huge

/-- a value that a variable of the format can have -/
def Stored {r : Rounding} : F64 r → Prop
  | .num x => r.rnd x = x
  | .inf _ => True
  | .nan => True

/-- rounding of doubles to nearest: 53 binary digits, below `2 ^ (-1022)` multiples of `2 ^ (-1074)` -/
noncomputable def doubleRnd (x : ℝ) : ℝ :=
  if |x| < 2 ^ (-1022 : ℤ) then (round (x / 2 ^ (-1074 : ℤ)) : ℝ) * 2 ^ (-1074 : ℤ) else nearest 53 x

/-- doubles; the mathematical library rounds exact results -/
noncomputable def double : Rounding where
  rnd := doubleRnd
  huge := 2 ^ 1024 - 2 ^ 970
  exp x := doubleRnd (Real.exp x)
  log x := doubleRnd (Real.log x)
  sqrt x := doubleRnd √x
  erf _ := 0
  erfc _ := 1
  pi := doubleRnd 3.141592653589793

/-- upward rounding of positive numbers to 53 binary digits -/
noncomputable def upward (x : ℝ) : ℝ :=
  (⌈x / 2 ^ (Int.log 2 |x| - 52)⌉ : ℝ) * 2 ^ (Int.log 2 |x| - 52)

/-- doubles with upward rounding -/
noncomputable def upwardDouble : Rounding := { double with rnd := upward }

end Nlcg.Spec
