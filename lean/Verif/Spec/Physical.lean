import Verif.Spec.Host

/-!
# Specification vocabulary: states of electrons

A state of non-interacting electrons is described by one density matrix per k-point. With an overlap
operator `S`, the number of electrons in a one-particle state `v` with `v^H S v = 1` is
`v^H S ρ S v`.
-/

namespace Nlcg.Spec
open Matrix

variable {K : ℕ} {n b : Fin K → ℕ}

/-- density matrices of orbitals with occupations -/
def densityMatrix (X : Orbitals n b) (f : Bands b) (k : Fin K) : Mat (n k) (n k) :=
  X k * diagonal (fun i => (f k i : ℂ)) * (X k)ᴴ

/-- the number of electrons, weighted over the k-points -/
noncomputable def electronsIn (wk : Fin K → ℝ) (S rho : (k : Fin K) → Mat (n k) (n k)) : ℝ :=
  ∑ k, wk k * (trace (S k * rho k)).re

/-- `v^H A v` -/
noncomputable def expectation {N : ℕ} (A : Mat N N) (v : Fin N → ℂ) : ℝ := (star v ⬝ᵥ (A *ᵥ v)).re

/-- Every one-particle state, whatever its length, holds at least no electron and at most `mo`. -/
def Pauli (mo : ℝ) (S rho : (k : Fin K) → Mat (n k) (n k)) : Prop :=
  ∀ k v, 0 ≤ expectation (S k * rho k * S k) v ∧
    expectation (S k * rho k * S k) v ≤ mo * expectation (S k) v

/-- the orbitals and occupations `X`, `f` were handed to the host to be evaluated -/
def Handed (cs : List (HostCall n b)) (X : Orbitals n b) (f : Bands b) : Prop :=
  [HostCall.setC X, HostCall.setFn f] <:+: cs

end Nlcg.Spec
