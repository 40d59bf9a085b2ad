import Verif.Spec.CallAgain
import Verif.Spec.Physical
import Verif.Spec.Smearing

/-!
# Specification vocabulary: the exact solution for electrons that do not interact

The solution is written down without any iteration: the lowest eigenvectors of the Hamiltonian,
occupied according to the textbook formulas of the smearing (no cut-offs).
-/

namespace Nlcg.Spec
open Matrix Real

variable {K : ℕ} {n b : Fin K → ℕ}

/-- fraction of the maximal occupancy, `x = (mu - e) / kT` -/
noncomputable def idealFn : SmearType → ℝ → ℝ
  | .fermiDirac, x => fermi x
  | .gaussianSpline, x => spline x
  | .gauss, x => (1 + erf x) / 2
  | .methfesselPaxton, x => (1 + erf x) / 2 + x * exp (-x ^ 2) / (2 * √π)
  | .cold, x => (1 - erf (1 / √2 - x)) / 2 + exp (-(x - 1 / √2) ^ 2) / (√2 * √π)

/-- entropy per maximal occupancy: the function with `ds = -x df` that vanishes for empty states -/
noncomputable def idealEntropy : SmearType → ℝ → ℝ
  | .fermiDirac, x => mixing (fermi x)
  | .gaussianSpline, x => |x| * exp (-(√2 * |x|) - x ^ 2) / 2 + exp (1 / 2) * √π * (1 - erf (1 / √2 + |x|)) / 4
  | .gauss, x => exp (-x ^ 2) / (2 * √π)
  | .methfesselPaxton, x => (1 - 2 * x ^ 2) * exp (-x ^ 2) / (4 * √π)
  | .cold, x => (1 - √2 * x) * exp (-(x - 1 / √2) ^ 2) / (2 * √π)

/-- `V` are eigenvectors of `H` with the lowest eigenvalues `e`: states orthogonal to them have
energies above -/
structure Lowest {N B : ℕ} (H S : Mat N N) (V : Mat N B) (e : Fin B → ℝ) : Prop where
  ortho : SOrtho S V
  eigen : H * V = S * V * diagonal (fun i => (e i : ℂ))
  above : ∀ v : Fin N → ℂ, Vᴴ *ᵥ (S *ᵥ v) = 0 → ∀ i, e i * expectation S v ≤ expectation H v

/-- number of electrons of the exact solution with chemical potential `mu` -/
noncomputable def exactElectrons (t : SmearType) (T mo : ℝ) (wk : Fin K → ℝ) (e : Bands b) (mu : ℝ) : ℝ :=
  ∑ k, wk k * ∑ i, mo * idealFn t ((mu - e k i) / (kB * T))

/-- free energy of the exact solution -/
noncomputable def exactFreeEnergy (t : SmearType) (T mo : ℝ) (wk : Fin K → ℝ) (e : Bands b) (mu : ℝ) : ℝ :=
  ∑ k, wk k * ∑ i, mo * (e k i * idealFn t ((mu - e k i) / (kB * T))
    - kB * T * idealEntropy t ((mu - e k i) / (kB * T)))

/-- what the cut-offs of the code can contribute per band: nothing, or some `1e-14` -/
noncomputable def cutoffError : SmearType → ℝ
  | .fermiDirac => 41 * exp (-35)
  | _ => 0

end Nlcg.Spec
