import Mathlib.Data.Rat.Defs
import Mathlib.Algebra.Order.Ring.Unbundled.Rat
import Mathlib.Data.Real.Basic

/-!
# Arithmetic without laws

The control flow of the solver branches on comparisons of `double`s. To make
theorems about it valid for IEEE arithmetic (any rounding mode, infinities, NaN), the
model is written over a class that provides the operations and *no laws*.
C++ `a > b` is `b <ᶠ a`, `a >= b` is `b ≤ᶠ a`; both are false if an operand is NaN.
Literals are given by their exact decimal value.
-/

namespace Nlcg

class Arith (α : Type) where
  lit : ℚ → α
  add : α → α → α
  sub : α → α → α
  mul : α → α → α
  div : α → α → α
  neg : α → α
  abs : α → α
  lt : α → α → Bool
  le : α → α → Bool
  beq : α → α → Bool

namespace Arith
scoped infixl:65 " +ᶠ " => Arith.add
scoped infixl:65 " -ᶠ " => Arith.sub
scoped infixl:70 " *ᶠ " => Arith.mul
scoped infixl:70 " /ᶠ " => Arith.div
scoped infix:50 " <ᶠ " => Arith.lt
scoped infix:50 " ≤ᶠ " => Arith.le
end Arith

/-- Exact real arithmetic. -/
noncomputable instance instArithReal : Arith ℝ where
  lit q := (q : ℝ)
  add a b := a + b
  sub a b := a - b
  mul a b := a * b
  div a b := a / b
  neg a := -a
  abs a := |a|
  lt a b := decide (a < b)
  le a b := decide (a ≤ b)
  beq a b := decide (a = b)

/-- Exact rational arithmetic (computable, for witnesses). -/
instance instArithRat : Arith ℚ where
  lit q := q
  add a b := a + b
  sub a b := a - b
  mul a b := a * b
  div a b := a / b
  neg a := -a
  abs a := |a|
  lt a b := decide (a < b)
  le a b := decide (a ≤ b)
  beq a b := decide (a = b)

/-- Rationals with a NaN: NaN is absorbing, every comparison with it is false,
and division by zero gives NaN (the infinities of IEEE are not distinguished). -/
inductive NaNRat where
  | num (q : ℚ)
  | nan
  deriving DecidableEq

namespace NaNRat
def map1 (f : ℚ → ℚ) : NaNRat → NaNRat
  | num a => num (f a)
  | nan => nan
def map2 (f : ℚ → ℚ → ℚ) : NaNRat → NaNRat → NaNRat
  | num a, num b => num (f a b)
  | _, _ => nan
def cmp (f : ℚ → ℚ → Bool) : NaNRat → NaNRat → Bool
  | num a, num b => f a b
  | _, _ => false
def divide : NaNRat → NaNRat → NaNRat
  | num a, num b => if b = 0 then nan else num (a / b)
  | _, _ => nan
end NaNRat

instance instArithNaNRat : Arith NaNRat where
  lit := NaNRat.num
  add := NaNRat.map2 (· + ·)
  sub := NaNRat.map2 (· - ·)
  mul := NaNRat.map2 (· * ·)
  div := NaNRat.divide
  neg := NaNRat.map1 (- ·)
  abs := NaNRat.map1 (|·|)
  lt := NaNRat.cmp (fun a b => decide (a < b))
  le := NaNRat.cmp (fun a b => decide (a ≤ b))
  beq := NaNRat.cmp (fun a b => decide (a = b))

section RealSimp
variable (a b : ℝ) (q : ℚ)
@[simp] theorem real_lit : (Arith.lit q : ℝ) = (q : ℝ) := rfl
@[simp] theorem real_add : Arith.add a b = a + b := rfl
@[simp] theorem real_sub : Arith.sub a b = a - b := rfl
@[simp] theorem real_mul : Arith.mul a b = a * b := rfl
@[simp] theorem real_div : Arith.div a b = a / b := rfl
@[simp] theorem real_neg : Arith.neg a = -a := rfl
@[simp] theorem real_abs : Arith.abs a = |a| := rfl
@[simp] theorem real_lt : Arith.lt a b = decide (a < b) := rfl
@[simp] theorem real_le : Arith.le a b = decide (a ≤ b) := rfl
@[simp] theorem real_beq : Arith.beq a b = decide (a = b) := rfl
end RealSimp

end Nlcg
