import Verif.Spec.Represent
import Verif.Spec.Gauge

/-!
# Specification vocabulary: symmetries of a system
-/

namespace Nlcg.Spec
open Matrix

variable {K : ℕ} {n b : Fin K → ℕ} {η : Type}

/-- one matrix per k-point that acts on the plane waves -/
abbrev Turn (n : Fin K → ℕ) := (k : Fin K) → Mat (n k) (n k)

/-- `U` is unitary and commutes with overlap and preconditioner -/
structure SymmetricSystem (U : Turn n) (c : Cfg n b) : Prop where
  unitary : ∀ k, (U k)ᴴ * U k = 1
  S : ∀ k, c.S k * U k = U k * c.S k
  P : ∀ k, c.P k * U k = U k * c.P k

/-- `U` is a symmetry of the host: in states that differ by `U` (relation `R`) it gives the same answers, with
orbitals and `H X` that differ by `U` -/
abbrev SymmetricHost (U : Turn n) (host : Host η n b) := SameHost (n := n) (b := b) id U host host

/-- The host seen by someone who describes orbitals by `U X` instead of `X`. If `U` is a symmetry, this host and
the original one describe the same physics. -/
noncomputable def turned (U : Turn n) (host : Host η n b) : Host η n b :=
  { host with
    setC := fun X => host.setC fun k => (U k)ᴴ * X k
    C := fun h k => U k * host.C h k
    hphi := fun h k => U k * host.hphi h k }

/-- all orbitals are left alone by `U` -/
def Invariant (U : Turn n) (X : Orbitals n b) : Prop := ∀ k, U k * X k = X k

/-- `U` multiplies each orbital by a phase: it has a definite symmetry, even or odd, say -/
def Definite (U : Turn n) (X : Orbitals n b) : Prop :=
  ∃ v : Phases b, IsPhase v ∧ ∀ k, U k * X k = X k * diagonal (v k)

end Nlcg.Spec
