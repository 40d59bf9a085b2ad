import Verif.Spec.Thermo

/-!
# Specification vocabulary: comparing runs with different energy functionals
-/

namespace Nlcg.Spec
open Matrix Real

variable {K : ℕ} {n b : Fin K → ℕ}

/-- the states that compete: orthonormal orbitals, and pseudo-energies for which the chemical potential `mu` has
been found -/
structure IsState (c : Cfg n b) (X : Orbitals n b) (ek : Bands b) (mu : ℝ) : Prop where
  ortho : ∀ k, SOrtho (c.S k) (X k)
  occ : c.occ ek = .ok (mu, occs c.t c.T c.mo ek mu)

/-- no state has a free energy below `F` by more than `δ`: the minimum has been found up to `δ` -/
def LowestUpTo (c : Cfg n b) (E : Orbitals n b → Bands b → ℝ) (δ F : ℝ) : Prop :=
  ∀ X ek mu, IsState c X ek mu → F ≤ stateFree E c.t c.T c.mo c.wk X ek mu + δ

/-- two configurations with the same states and the same entropy; preconditioner, `kappa` and LAPACK may differ -/
structure SameStates (c c' : Cfg n b) : Prop where
  t : c'.t = c.t
  T : c'.T = c.T
  mo : c'.mo = c.mo
  wk : c'.wk = c.wk
  S : c'.S = c.S
  occ : c'.occ = c.occ

/-- The state whose free energy a run has returned: `F` is its free energy for the functional `E`. If the run
reports success, the orbitals and occupations are those that the host has at the end. -/
structure ReturnedState {η : Type} (host : Host η n b) (c : Cfg n b) (E : Orbitals n b → Bands b → ℝ)
    (info : Info ℝ) (h : η) (F : ℝ) (X : Orbitals n b) (f : Bands b) : Prop where
  returned : ∃ vals, info.vals = some vals ∧ vals.F = F
  state : ∃ ek mu, IsState c X ek mu ∧ f = occs c.t c.T c.mo ek mu ∧ F = stateFree E c.t c.T c.mo c.wk X ek mu
  final : info.converged = true → host.C h = X ∧ host.fn h = f

end Nlcg.Spec
