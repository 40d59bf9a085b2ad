import Verif.Spec.Residual

/-! # Energy levels of a system -/

namespace Nlcg.Spec
open Matrix

/-- `x` is an energy level: an eigenvalue of the generalised eigenvalue problem `H v = x S v` -/
def IsLevel {N : ℕ} (H S : Mat N N) (x : ℝ) : Prop := ∃ v : Fin N → ℂ, v ≠ 0 ∧ H *ᵥ v = (x : ℂ) • (S *ᵥ v)

variable {K : ℕ} {n b : Fin K → ℕ} {η : Type}

/-- Band `i` at k-point `k` stands apart: it holds electrons, and its pseudo-energy and its occupation differ from
those of the other bands of this k-point, with a slope of at least `q` between them. -/
structure StandsApart (f e : Bands b) (q : ℝ) (k : Fin K) (i : Fin (b k)) : Prop where
  occupied : 0 < f k i
  positive : 0 < q
  apart : ∀ j, j ≠ i → 1 / 10 ^ 10 ≤ |e k i - e k j|
  slope : ∀ j, j ≠ i → q ≤ (f k j - f k i) / (e k i - e k j)

end Nlcg.Spec
