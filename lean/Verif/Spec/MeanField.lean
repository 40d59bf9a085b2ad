import Verif.Spec.Density

/-!
# Specification vocabulary: electrons that interact through a mean field
-/

namespace Nlcg.Spec
open Matrix Real

variable {K : ℕ} {n b : Fin K → ℕ}

/-- The energy lies above its tangent at orbitals `V` with occupations `φ`; the slope is the Hamiltonian `H` of this
state. Energies that are convex functions of the density lie above all their tangents. -/
def AboveTangent (S : (k : Fin K) → Mat (n k) (n k)) (E : Orbitals n b → Bands b → ℝ) (mo : ℝ) (wk : Fin K → ℝ)
    (H : (k : Fin K) → Mat (n k) (n k)) (V : Orbitals n b) (φ : Bands b) : Prop :=
  ∀ X f, (∀ k, SOrtho (S k) (X k)) → (∀ k i, 0 ≤ f k i ∧ f k i ≤ mo) →
    E V φ + (bandEnergy H wk X f - bandEnergy H wk V φ) ≤ E X f

/-- A self-consistent state: the orbitals are the lowest eigenvectors of the Hamiltonian of this state, and the
occupations follow from the eigenvalues. -/
structure MeanField (S : (k : Fin K) → Mat (n k) (n k)) (E : Orbitals n b → Bands b → ℝ) (t : SmearType) (T mo : ℝ)
    (wk : Fin K → ℝ) (ne : ℝ) (H : (k : Fin K) → Mat (n k) (n k)) (V : Orbitals n b) (e : Bands b) (mu : ℝ) : Prop where
  herm : ∀ k, (H k).IsHermitian
  lowest : ∀ k, Lowest (H k) (S k) (V k) (e k)
  count : exactElectrons t T mo wk e mu = ne
  tangent : AboveTangent S E mo wk H V (exactOcc t T mo e mu)

/-- free energy of such a state -/
noncomputable def fieldFree (E : Orbitals n b → Bands b → ℝ) (t : SmearType) (T mo : ℝ) (wk : Fin K → ℝ)
    (V : Orbitals n b) (e : Bands b) (mu : ℝ) : ℝ :=
  E V (exactOcc t T mo e mu) - kB * T * exactEntropy t T mo wk e mu

/-- densities of all k-points -/
def densities (X : Orbitals n b) (f : Bands b) : (k : Fin K) → Mat (n k) (n k) := fun k => densityOf (X k) (f k)

/-- expectation value of `H` in the densities `D` -/
noncomputable def meanOf (wk : Fin K → ℝ) (H D : (k : Fin K) → Mat (n k) (n k)) : ℝ :=
  ∑ k, wk k * (trace (H k * D k)).re

end Nlcg.Spec
