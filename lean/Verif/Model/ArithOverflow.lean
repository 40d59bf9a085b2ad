import Verif.Model.Arith

/-!
# Arithmetic with overflow

Numbers of magnitude `2^1024` and above become infinite, as for IEEE doubles. Rounding, signed
zeros and underflow are not modelled. Only used to show that overflow ends a loop
(property C25), the general theorems are about every `Arith`.
-/

namespace Nlcg

inductive Ov where
  | num (q : ℚ)
  | inf (negative : Bool)
  | nan
  deriving DecidableEq

namespace Ov
/-- the overflow threshold -/
@[irreducible] def huge : ℚ := 2 ^ 1024

def norm (q : ℚ) : Ov := if |q| < huge then num q else inf (decide (q < 0))
def neg : Ov → Ov
  | num a => num (-a)
  | inf b => inf !b
  | nan => nan
def add : Ov → Ov → Ov
  | num a, num b => norm (a + b)
  | inf s, inf s' => if s = s' then inf s else nan
  | inf s, num _ => inf s
  | num _, inf s => inf s
  | _, _ => nan
def mul : Ov → Ov → Ov
  | num a, num b => norm (a * b)
  | inf s, inf s' => inf (s != s')
  | inf s, num a => if a = 0 then nan else inf (s != decide (a < 0))
  | num a, inf s => if a = 0 then nan else inf (s != decide (a < 0))
  | _, _ => nan
def div : Ov → Ov → Ov
  | num a, num b => if b = 0 then (if a = 0 then nan else inf (decide (a < 0))) else norm (a / b)
  | num _, inf _ => num 0
  | inf s, num b => inf (s != decide (b < 0))
  | _, _ => nan
def lt : Ov → Ov → Bool
  | num a, num b => decide (a < b)
  | inf true, inf false => true
  | inf true, num _ => true
  | num _, inf false => true
  | _, _ => false
def eq : Ov → Ov → Bool
  | nan, _ => false
  | a, b => decide (a = b)
end Ov

instance instArithOv : Arith Ov where
  lit := Ov.norm
  add := Ov.add
  sub a b := Ov.add a (Ov.neg b)
  mul := Ov.mul
  div := Ov.div
  neg := Ov.neg
  abs a := match a with
    | .num q => .num |q|
    | .inf _ => .inf false
    | .nan => .nan
  lt := Ov.lt
  le a b := Ov.lt a b || Ov.eq a b
  beq := Ov.eq

end Nlcg
