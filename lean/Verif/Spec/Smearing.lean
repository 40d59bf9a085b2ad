import Verif.Model.Smearing
import Verif.Spec.KPoints

/-!
# Specification vocabulary: smearing functions

Written from the textbook formulas, independently of the code's branches.
-/

namespace Nlcg.Spec
open Real

/-- The smearings whose occupation is a probability. -/
def Monotonic : SmearType → Prop
  | .fermiDirac | .gaussianSpline | .gauss => True
  | .methfesselPaxton | .cold => False

/-- Arguments at which neither occupation nor delta nor entropy is cut off. -/
def inside : SmearType → Set ℝ
  | .fermiDirac => Set.Ioo (-35) 35
  | .gaussianSpline => Set.Ioo (-7) 7
  | .cold => Set.Ioo (-8) 8
  | .gauss | .methfesselPaxton => Set.univ

/-- Arguments at which neither delta nor its derivative nor the entropy is cut off. -/
def insideDelta : SmearType → Set ℝ
  | .fermiDirac => Set.Ioo (-35) 35
  | .gaussianSpline => Set.Ioo (-7) 7
  | .cold => Set.Ioo (-8) 10
  | .gauss | .methfesselPaxton => Set.univ

/-- Fermi function, `x = (mu - e) / kT` -/
noncomputable def fermi (x : ℝ) : ℝ := 1 / (exp (-x) + 1)

/-- Gaussian spline without cut-offs -/
noncomputable def spline (x : ℝ) : ℝ :=
  if x ≤ 0 then exp (√2 * x - x ^ 2) / 2 else 1 - exp (-(√2 * x) - x ^ 2) / 2

/-- mixing entropy of an occupation fraction -/
noncomputable def mixing (f : ℝ) : ℝ := -(f * log f + (1 - f) * log (1 - f))

/-- Number of electrons that fit into all bands of all k-points. -/
noncomputable def capacity (d : Spec.Dist ℝ) (occ : ℝ) : ℝ :=
  occ * (d.flatten.map fun q => q.weight * (q.energies.length : ℝ)).sum

end Nlcg.Spec
