import Verif.Model.Solver

/-! Insulators: a gap separates the bands that are full at zero temperature from those that are empty. -/

namespace Nlcg.Spec
open Finset

variable {K : ℕ} {b : Fin K → ℕ}

/-- The bands `full` lie below `Ev`, the others above `Ec`, and the full ones hold all electrons. -/
structure Insulator (p : OccParams ℝ) (wk : Fin K → ℝ) (ek : Bands b) (full : (k : Fin K) → Fin (b k) → Bool)
    (Ev Ec : ℝ) : Prop where
  gap : Ev < Ec
  below : ∀ k i, full k i = true → ek k i ≤ Ev
  above : ∀ k i, full k i = false → Ec ≤ ek k i
  electrons : p.ne = ∑ k, wk k * ∑ i, if full k i then p.occ else 0

/-- charge that may be in the wrong place: what the tails of the smearing function reach at half the gap, for all
bands together, and the tolerance of the search -/
noncomputable def misplaced (p : OccParams ℝ) (wk : Fin K → ℝ) (b : Fin K → ℕ) (Ev Ec : ℝ) : ℝ :=
  (∑ k, wk k * b k) * p.occ * Real.exp (-(Ec - Ev) / (2 * (kB * p.T))) + p.tol

end Nlcg.Spec
