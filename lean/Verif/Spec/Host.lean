import Verif.Model.Solver
import Verif.Spec.LinAlg
import Verif.Spec.FreeEnergy

/-!
# Specification vocabulary: the host's contract and the call protocol
-/

namespace Nlcg.Spec
open Matrix ComplexOrder

variable {K : ℕ} {n b : Fin K → ℕ} {η : Type}

/-- everything the solver can read from the host is the same -/
structure SameView (host : Host η n b) (h h' : η) : Prop where
  C : host.C h' = host.C h
  hphi : host.hphi h' = host.hphi h
  fn : host.fn h' = host.fn h
  ek : host.ek h' = host.ek h

/-- `hphi` is a Hermitian Hamiltonian `H` applied to the orbitals, and the band energies are its
expectation values -/
structure Computed (host : Host η n b) (h : η) (H : (k : Fin K) → Mat (n k) (n k)) : Prop where
  herm : ∀ k, (H k).IsHermitian
  hphi : ∀ k, host.hphi h k = H k * host.C h k
  ek : ∀ k i, (host.ek h k i : ℂ) = ((host.C h k)ᴴ * (H k * host.C h k)) i i

/-- What is expected of the host. Nothing is assumed about a call that throws, nor about the
energy, nor about how the Hamiltonian depends on orbitals and occupations. -/
structure HostOk (host : Host η n b) : Prop where
  setC : ∀ X h h', host.setC X h = (some (), h') → host.C h' = X
  setFn : ∀ f h h', host.setFn f h = (some (), h') → host.fn h' = f ∧ host.C h' = host.C h
  compute : ∀ h h', host.compute h = (some (), h') →
    host.C h' = host.C h ∧ host.fn h' = host.fn h ∧ ∃ H, Computed host h' H
  setMu : ∀ mu h h', host.setMu mu h = (some (), h') → SameView host h h' ∧ host.mu h' = mu
  energy : ∀ h e h', host.energy h = (some e, h') → SameView host h h' ∧ host.mu h' = host.mu h
  print : ∀ h h', host.print h = (some (), h') → SameView host h h' ∧ host.mu h' = host.mu h

/-- The setting of a run: host and LAPACK do what they promise, overlap operators are positive
semidefinite, preconditioners positive definite, weights positive, and the occupations are those of
the chemical potential found (`C05`). -/
structure Setting (host : Host η n b) (c : Cfg n b) : Prop where
  host : HostOk host
  lapack : LapackOk c.la
  overlap : ∀ k, (c.S k).PosSemidef
  prec : ∀ k, (c.P k).PosDef
  weights : ∀ k, 0 < c.wk k
  occ : ∀ ek mu f, c.occ ek = .ok (mu, f) → f = occs c.t c.T c.mo ek mu

/-- an evaluated point: orbitals, occupations, chemical potential -/
abbrev Evaluated (n b : Fin K → ℕ) := Orbitals n b × Bands b × ℝ

/-- the five calls of an evaluation, in order -/
def evaluation (p : Evaluated n b) : List (HostCall n b) :=
  [.setC p.1, .setFn p.2.1, .compute, .setMu p.2.2, .energy]

/-- Legal histories of host calls, with the last evaluated point: one `compute`, then evaluations;
print-outs only between evaluations. -/
inductive Protocol : List (HostCall n b) → Option (Evaluated n b) → Prop
  | start : Protocol [.compute] none
  | evaluate (cs : List (HostCall n b)) (l : Option (Evaluated n b)) (p : Evaluated n b) :
      Protocol cs l → Protocol (cs ++ evaluation p) (some p)
  | print (cs : List (HostCall n b)) (p : Evaluated n b) :
      Protocol cs (some p) → Protocol (cs ++ [.print]) (some p)

/-- a history that was cut short by an exception -/
def Interrupted (cs : List (HostCall n b)) : Prop := ∃ cs' l, Protocol cs' l ∧ cs <+: cs'

/-- all orbitals handed to the host are S-orthonormal -/
def AllOrtho (S : (k : Fin K) → Mat (n k) (n k)) (cs : List (HostCall n b)) : Prop :=
  ∀ X, HostCall.setC X ∈ cs → ∀ k, SOrtho (S k) (X k)

/-- orthonormal orbitals with occupations that belong to some band energies -/
def Admissible (c : Cfg n b) (X : Orbitals n b) (f : Bands b) : Prop :=
  (∀ k, SOrtho (c.S k) (X k)) ∧ ∃ e mu, f = occs c.t c.T c.mo e mu

/-- A host whose total energy is a function `E` of orbitals and occupations that only depends on the
density matrices `X f X^H`, and a chemical potential that does not depend on the order of the
bands. -/
structure EnergyOf (host : Host η n b) (c : Cfg n b) (E : Orbitals n b → Bands b → ℝ) : Prop where
  energy : ∀ h e h', Admissible c (host.C h) (host.fn h) → host.energy h = (some e, h') →
    e = E (host.C h) (host.fn h)
  density : ∀ X X' f f', Admissible c X f → Admissible c X' f' →
    (∀ k, X' k * diagonal (fun i => (f' k i : ℂ)) * (X' k)ᴴ
      = X k * diagonal (fun i => (f k i : ℂ)) * (X k)ᴴ) → E X' f' = E X f
  occ : ∀ ek ek' mu mu' f f', (∀ k, (List.ofFn (ek' k)).Perm (List.ofFn (ek k))) →
    c.occ ek = .ok (mu, f) → c.occ ek' = .ok (mu', f') → mu' = mu

/-- the host never throws -/
structure NeverThrows (host : Host η n b) : Prop where
  compute : ∀ h, ∃ h', host.compute h = (some (), h')
  setC : ∀ X h, ∃ h', host.setC X h = (some (), h')
  setFn : ∀ f h, ∃ h', host.setFn f h = (some (), h')
  setMu : ∀ mu h, ∃ h', host.setMu mu h = (some (), h')
  energy : ∀ h, ∃ e h', host.energy h = (some e, h')
  print : ∀ h, ∃ h', host.print h = (some (), h')

end Nlcg.Spec
