import Verif.Model.FullRecord
import Verif.Spec.Host

/-!
# Specification vocabulary: what a step record says
-/

namespace Nlcg.Spec
open Matrix

variable {K : ℕ} {n b : Fin K → ℕ} {η : Type}

/-- asked again, or after printing, the host tells the same total energy -/
structure Rereads (host : Host η n b) : Prop where
  again : ∀ h E h', host.energy h = (some E, h') → (host.energy h').1 = some E
  print : ∀ h h', host.print h = (some (), h') → (host.energy h').1 = (host.energy h).1

/-- All entries of the record belong to one state: orthonormal orbitals `X`, band energies `ek` and the Fermi
level `mu` found for them. `E` is the total energy. -/
structure Describes (c : Cfg n b) (X : Orbitals n b) (ek : Bands b) (mu E : ℝ) (r : StepRec b) : Prop where
  ortho : ∀ k, SOrtho (c.S k) (X k)
  found : c.occ ek = .ok (mu, occs c.t c.T c.mo ek mu)
  fermi : r.fermi = mu
  eks : r.eks = some E
  entropy : r.entropy =
    -(kB * c.T) * ∑ k, c.wk k * ∑ j, (smearFns c.t).entropy ((mu - ek k j) / (kB * c.T)) c.mo
  F : r.F = E + r.entropy
  bands : r.bands = if 10 ∣ r.step then some (ek, occs c.t c.T c.mo ek mu) else none

end Nlcg.Spec
