import Verif.Model.Arith
import Mathlib.Analysis.SpecialFunctions.Log.Basic
import Mathlib.Analysis.SpecialFunctions.Exp

/-!
# Floating point numbers

`double` with an arbitrary rounding: finite numbers, infinities, NaN. A result of magnitude `huge` or above
becomes infinite. Operations with infinities and NaN as in IEEE 754; the sign of zero is not modelled: a number
divided by zero has the sign of the dividend.
-/

namespace Nlcg

/-- how a platform rounds, and what its mathematical library returns for finite arguments -/
structure Rounding where
  rnd : ℝ → ℝ
  huge : ℝ
  exp : ℝ → ℝ
  log : ℝ → ℝ
  sqrt : ℝ → ℝ
  erf : ℝ → ℝ
  erfc : ℝ → ℝ
  pi : ℝ

/-- a floating point number of the platform `r` -/
inductive F64 (r : Rounding) where
  | num (x : ℝ)
  | inf (negative : Bool)
  | nan

instance (r : Rounding) : Inhabited (F64 r) := ⟨.num 0⟩

namespace F64
variable {r : Rounding}

/-- the result of an operation with the exact value `x` -/
noncomputable def norm (x : ℝ) : F64 r := if |x| < r.huge then num (r.rnd x) else inf (decide (x < 0))

def neg : F64 r → F64 r
  | num a => num (-a)
  | inf b => inf !b
  | nan => nan

noncomputable def add : F64 r → F64 r → F64 r
  | num a, num b => norm (a + b)
  | inf s, inf s' => if s = s' then inf s else nan
  | inf s, num _ => inf s
  | num _, inf s => inf s
  | _, _ => nan

noncomputable def mul : F64 r → F64 r → F64 r
  | num a, num b => norm (a * b)
  | inf s, inf s' => inf (s != s')
  | inf s, num a => if a = 0 then nan else inf (s != decide (a < 0))
  | num a, inf s => if a = 0 then nan else inf (s != decide (a < 0))
  | _, _ => nan

noncomputable def div : F64 r → F64 r → F64 r
  | num a, num b => if b = 0 then (if a = 0 then nan else inf (decide (a < 0))) else norm (a / b)
  | num _, inf _ => num 0
  | inf s, num b => inf (s != decide (b < 0))
  | _, _ => nan

noncomputable def lt : F64 r → F64 r → Bool
  | num a, num b => decide (a < b)
  | inf true, inf false => true
  | inf true, num _ => true
  | num _, inf false => true
  | _, _ => false

noncomputable def eq : F64 r → F64 r → Bool
  | num a, num b => decide (a = b)
  | inf s, inf s' => decide (s = s')
  | _, _ => false

def abs : F64 r → F64 r
  | num a => num |a|
  | inf _ => inf false
  | nan => nan

end F64

noncomputable instance instArithFl (r : Rounding) : Arith (F64 r) where
  lit q := F64.norm (q : ℝ)
  add := F64.add
  sub a b := F64.add a (F64.neg b)
  mul := F64.mul
  div := F64.div
  neg := F64.neg
  abs := F64.abs
  lt := F64.lt
  le a b := F64.lt a b || F64.eq a b
  beq := F64.eq

/-- the functions of `<cmath>` that `src/smearing.hpp` uses; `cube x` is `std::pow(x, 3)`, `pi` is `constants::pi`,
`src/constants.hpp` -/
class Libm (α : Type) extends Arith α where
  exp : α → α
  log : α → α
  sqrt : α → α
  erf : α → α
  erfc : α → α
  cube : α → α
  pi : α

noncomputable instance instLibmFl (r : Rounding) : Libm (F64 r) where
  exp
    | .num x => if Real.exp x < r.huge then .num (r.exp x) else .inf false
    | .inf true => .num 0
    | .inf false => .inf false
    | .nan => .nan
  log
    | .num x => if 0 < x then .num (r.log x) else if x = 0 then .inf true else .nan
    | .inf true => .nan
    | .inf false => .inf false
    | .nan => .nan
  sqrt
    | .num x => if 0 ≤ x then .num (r.sqrt x) else .nan
    | .inf true => .nan
    | .inf false => .inf false
    | .nan => .nan
  erf
    | .num x => .num (r.erf x)
    | .inf true => .num (-1)
    | .inf false => .num 1
    | .nan => .nan
  erfc
    | .num x => .num (r.erfc x)
    | .inf true => .num 2
    | .inf false => .num 0
    | .nan => .nan
  cube
    | .num x => .norm (x ^ 3)
    | .inf s => .inf s
    | .nan => .nan
  pi := .num r.pi

end Nlcg
