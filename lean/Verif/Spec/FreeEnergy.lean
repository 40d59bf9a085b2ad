import Verif.Model.GradEta
import Mathlib.Analysis.Calculus.FDeriv.Basic
import Mathlib.Analysis.Normed.Group.Constructions

/-!
# Specification vocabulary: free energy of given pseudo-energies
-/

namespace Nlcg.Spec

variable {N : ℕ} {n : Fin N → ℕ}

/-- occupations for pseudo-energies `e` and chemical potential `mu` -/
noncomputable def occs (t : SmearType) (T mo : ℝ) (e : Bands n) (mu : ℝ) : Bands n :=
  fun k i => (smearFns t).fn ((mu - e k i) / (kB * T)) mo

/-- number of electrons -/
noncomputable def charge (t : SmearType) (T mo : ℝ) (w : Fin N → ℝ) (e : Bands n) (mu : ℝ) : ℝ :=
  ∑ k, w k * ∑ i, occs t T mo e mu k i

/-- Free energy: total energy `E`, a function of the occupations at fixed orbitals, plus the
reported entropy term. -/
noncomputable def freeEnergy (t : SmearType) (T mo : ℝ) (w : Fin N → ℝ) (E : Bands n → ℝ)
    (e : Bands n) (mu : ℝ) : ℝ :=
  E (occs t T mo e mu) + entropyTerm t T mo mu (List.ofFn fun k => (w k, List.ofFn (e k)))

/-- `h k i` are the orbital energies: the total energy changes with the occupation of orbital
`(k, i)` at the rate `w k * h k i` (Janak). -/
def OrbitalEnergies (w : Fin N → ℝ) (h : Bands n) (E : Bands n → ℝ) (f : Bands n) : Prop :=
  ∃ L : Bands n →L[ℝ] ℝ, HasFDerivAt E L f ∧ ∀ df, L df = ∑ k, w k * ∑ i, h k i * df k i

/-- A way to adapt the chemical potential when the pseudo-energies move by `s * d`, such that the
number of electrons stays fixed. -/
structure FixedCharge (t : SmearType) (T mo : ℝ) (w : Fin N → ℝ) (e d : Bands n) (mu : ℝ)
    (m : ℝ → ℝ) : Prop where
  start : m 0 = mu
  smooth : DifferentiableAt ℝ m 0
  fixed : ∀ᶠ s in nhds 0, charge t T mo w (e + s • d) (m s) = charge t T mo w e mu

end Nlcg.Spec
