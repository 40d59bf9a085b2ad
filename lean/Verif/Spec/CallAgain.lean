import Verif.Spec.Host

/-! # Specification vocabulary: a second call, electrons that do not interact -/

namespace Nlcg.Spec
open Matrix

variable {K : ℕ} {n b : Fin K → ℕ} {η : Type}

/-- `w` is a state from which the solver is called on the host that an earlier call has left in `w'`;
nothing else is kept -/
structure CallAgain (w' w : NState ℝ (SState η n b)) : Prop where
  host : w.s.h = w'.s.h
  calls : w.s.calls = []

/-- expectation values of the Hamiltonian -/
def levels (H : (k : Fin K) → Mat (n k) (n k)) (X : Orbitals n b) : Bands b := fun k i =>
  (((X k)ᴴ * (H k * X k)) i i).re

/-- weighted sum of the occupied energies -/
noncomputable def bandEnergy (H : (k : Fin K) → Mat (n k) (n k)) (wk : Fin K → ℝ) (X : Orbitals n b)
    (f : Bands b) : ℝ :=
  ∑ k, wk k * ∑ i, f k i * levels H X k i

/-- number of electrons -/
def electrons (wk : Fin K → ℝ) (f : Bands b) : ℝ := ∑ k, wk k * ∑ i, f k i

/-- The host has one Hamiltonian, whatever the orbitals and occupations are, and its energy is the sum
of the occupied energies. -/
structure NonInteracting (host : Host η n b) (c : Cfg n b) (H : (k : Fin K) → Mat (n k) (n k)) : Prop where
  compute : ∀ h h', host.compute h = (some (), h') → Computed host h' H
  energy : EnergyOf host c (bandEnergy H c.wk)

end Nlcg.Spec
