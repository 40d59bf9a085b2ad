import Verif.Spec.MoreBands
import Verif.Spec.Variational

/-!
# Specification vocabulary: what bands that are left out contribute to the free energy
-/

namespace Nlcg.Spec
open Real

variable {K : ℕ} {d : Fin K → ℕ}

/-- what the bands `more` can contribute to the free energy, for the chemical potential `mu`: for Fermi-Dirac smearing
`kT log (1 + exp ((mu - e) / kT))` for each electron that fits into a band -/
noncomputable def leftOut (t : SmearType) (T mo : ℝ) (wk : Fin K → ℝ) (more : Bands d) (mu : ℝ) : ℝ :=
  ∑ k, wk k * ∑ i, kB * T * (mo * (idealEntropy t ((mu - more k i) / (kB * T))
    + (mu - more k i) / (kB * T) * idealFn t ((mu - more k i) / (kB * T))))

end Nlcg.Spec
