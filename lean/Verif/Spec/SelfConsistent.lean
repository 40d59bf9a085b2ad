import Verif.Spec.Host

/-! # A self-consistent solution, as seen by the host -/

namespace Nlcg.Spec
open Matrix

variable {K : ℕ} {n b : Fin K → ℕ} {η : Type}

/-- `X` are orbitals, `f` occupations, `e` orbital energies and `mu` the chemical potential of a
self-consistent solution: the occupations belong to the energies, and whenever the host recomputes its
Hamiltonian for `X` and `f`, the orbitals are its eigenvectors, with eigenvalues `e`. -/
structure SelfConsistent (host : Host η n b) (c : Cfg n b) (X : Orbitals n b) (f e : Bands b) (mu : ℝ) :
    Prop where
  ortho : ∀ k, SOrtho (c.S k) (X k)
  occ : c.occ e = .ok (mu, f)
  eigen : ∀ h h', host.C h = X → host.fn h = f → host.compute h = (some (), h') →
    host.ek h' = e ∧ ∀ k, host.hphi h' k = c.S k * X k * diagonal fun i => (e k i : ℂ)

/-- the same, but the Hamiltonian may mix the orbitals among each other: it maps their span to itself, with the
matrix `L` -/
structure ClosedSpace (host : Host η n b) (c : Cfg n b) (X : Orbitals n b) (f e : Bands b) (mu : ℝ)
    (L : (k : Fin K) → Mat (b k) (b k)) : Prop where
  ortho : ∀ k, SOrtho (c.S k) (X k)
  occ : c.occ e = .ok (mu, f)
  closed : ∀ h h', host.C h = X → host.fn h = f → host.compute h = (some (), h') →
    host.ek h' = e ∧ ∀ k, host.hphi h' k = c.S k * X k * L k

end Nlcg.Spec
