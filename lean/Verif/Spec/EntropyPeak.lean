import Verif.Model.Smearing

/-!
# Specification vocabulary: the largest entropy of a state

Written from the textbook formulas: the entropy of a state at the Fermi level, per unit of the
maximal occupancy.
-/

namespace Nlcg.Spec
open Real

/-- entropy of a half-filled state: `ln 2` for Fermi-Dirac, `1 / (2√π)` for Gauss, `1 / (4√π)` for
Methfessel-Paxton, `1 / (2√(eπ))` for cold smearing and `√(eπ) erfc(1/√2) / 4` for the Gaussian
spline -/
noncomputable def peak : SmearType → ℝ
  | .fermiDirac => log 2
  | .gaussianSpline => √(exp 1 * π) / 4 * erfc (1 / √2)
  | .gauss => 1 / (2 * √π)
  | .methfesselPaxton => 1 / (4 * √π)
  | .cold => 1 / (2 * √(exp 1 * π))

end Nlcg.Spec
