import Verif.Spec.KPoints
import Verif.Model.Float

/-! Rounding errors, and the charge that occupations computed in floating point really hold. -/

namespace Nlcg.Spec

/-- Every result is off by at most `u` times the exact result, plus `η` (underflow). Rounding is symmetric, leaves
numbers of the machine alone and does not overflow. True of doubles with `u = 2 ^ (-53)`, `η = 2 ^ (-1075)` and
rounding to nearest. -/
structure Accurate (r : Rounding) (u η : ℝ) : Prop where
  u_nonneg : 0 ≤ u
  u_lt : u < 1
  η_nonneg : 0 ≤ η
  error : ∀ x, |r.rnd x - x| ≤ u * |x| + η
  symm : ∀ x, r.rnd (-x) = -r.rnd x
  again : ∀ x, r.rnd (r.rnd x) = r.rnd x
  one : r.rnd 1 = 1
  huge : 1 < r.huge
  below : ∀ x, |x| < r.huge → |r.rnd x| < r.huge

/-- the real number a floating point number stands for -/
def val {r : Rounding} : F64 r → ℝ
  | .num x => x
  | _ => 0

/-- the k-points with real numbers; `g` is applied to each of them -/
def realPoints {r : Rounding} (g : ℝ → ℝ) (d : Dist (F64 r)) : Dist ℝ :=
  d.map fun l => l.map fun q => { key := q.key, weight := g (val q.weight), energies := q.energies.map fun e => val e }

/-- the occupations as real numbers -/
def realOccs {r : Rounding} (g : ℝ → ℝ) (fs : List (KMap Key (List (F64 r)))) : List (KMap Key (List ℝ)) :=
  fs.map fun l => l.map fun e => (e.1, e.2.map fun f => g (val f))

/-- Deviation of the charge of the occupations from the number of electrons, for `K` k-points with at most `B` bands,
sum of the weights `W`, and charge `M` if all terms are taken positive: the tolerance, the rounding of all sums, and
underflows. -/
noncomputable def chargeError (u η tol : ℝ) (K B : ℕ) (W M : ℝ) : ℝ :=
  (tol + η) / (1 - u) + ((1 + u) ^ (B + K + 1) - 1) * M + η * (1 + u) ^ K * (2 * K + B * (1 + u) ^ (B + 1) * W)

end Nlcg.Spec
