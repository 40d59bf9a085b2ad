import Verif.Model.SmearFloat

/-! What is assumed about the arithmetic of the platform: much less than IEEE 754 guarantees. -/

namespace Nlcg.Spec

/-- Relative and absolute errors of at most `2 ^ (-20)`, numbers up to `10 ^ 200` without overflow, error functions in
their range. Doubles satisfy this with `2 ^ (-52)`, `2 ^ (-1074)` and `10 ^ 308`. -/
structure RoundingOk (r : Rounding) : Prop where
  huge : 10 ^ 200 ≤ r.huge
  rnd : ∀ x, |r.rnd x - x| ≤ |x| / 2 ^ 20 + 1 / 2 ^ 20
  exp : ∀ x, |r.exp x - Real.exp x| ≤ Real.exp x / 2 ^ 20 + 1 / 2 ^ 20
  log : ∀ x, 0 < x → |r.log x - Real.log x| ≤ |Real.log x| / 2 ^ 20 + 1 / 2 ^ 20
  sqrt : ∀ x, 0 ≤ x → |r.sqrt x - √x| ≤ √x / 2 ^ 20 + 1 / 2 ^ 20
  erf : ∀ x, |r.erf x| ≤ 1
  erfc : ∀ x, 0 ≤ r.erfc x ∧ r.erfc x ≤ 2
  pi : 3 ≤ r.pi ∧ r.pi ≤ 4

/-- a finite number of magnitude at most `B` -/
def Within {r : Rounding} (v : F64 r) (B : ℝ) : Prop := ∃ y, v = .num y ∧ |y| ≤ B

/-- not NaN: a finite number or an infinity -/
def IsNumber {r : Rounding} (v : F64 r) : Prop := v ≠ .nan

end Nlcg.Spec
