import Verif.Spec.Response

/-!
# Specification vocabulary: how far two densities are apart
-/

namespace Nlcg.Spec
open Matrix Real

variable {K : ℕ} {n b : Fin K → ℕ}

/-- density matrix of orbitals `X` with occupations `f` -/
def densityOf {N B : ℕ} (X : Mat N B) (f : Fin B → ℝ) : Mat N N := X * diagonal (fun i => (f i : ℂ)) * Xᴴ

/-- square of the distance of two Hermitian matrices in the metric of the overlap operator; without overlap operator this
is the sum of the squares of the differences of all matrix elements -/
noncomputable def distSq {N : ℕ} (S D D' : Mat N N) : ℝ := (trace ((D - D') * S * ((D - D') * S))).re

/-- occupations of the exact solution -/
noncomputable def exactOcc (t : SmearType) (T mo : ℝ) (e : Bands b) (mu : ℝ) : Bands b :=
  fun k i => mo * idealFn t ((mu - e k i) / (kB * T))

/-- how strongly the entropy pulls an occupation to its value: half the inverse of the greatest slope of the occupation
function -/
noncomputable def stiffness : SmearType → ℝ
  | .fermiDirac => 2
  | .gaussianSpline => 1 / √2
  | .gauss => √π / 2
  | _ => 0

/-- states outside the bands lie above all bands, by at least `g` -/
def GapAbove {N B : ℕ} (H S : Mat N N) (V : Mat N B) (e : Fin B → ℝ) (g : ℝ) : Prop :=
  ∀ v : Fin N → ℂ, Vᴴ *ᵥ (S *ᵥ v) = 0 → ∀ i, (e i + g) * expectation S v ≤ expectation H v

/-- the factor between the error of the free energy and the square of the error of the density -/
noncomputable def densityFactor (t : SmearType) (T mo g : ℝ) : ℝ := (2 / (stiffness t * (kB * T)) + 3 / g) * mo

end Nlcg.Spec
