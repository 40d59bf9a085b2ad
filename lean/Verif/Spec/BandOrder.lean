import Verif.Spec.Gauge

/-!
Bands in another order, and hosts that do not depend on the order of the bands.
-/

namespace Nlcg.Spec
open Matrix

variable {K : ℕ} {n b : Fin K → ℕ} {η ξ : Type}

/-- an order of the bands of every k-point -/
abbrev BandPerm (b : Fin K → ℕ) := (k : Fin K) → Equiv.Perm (Fin (b k))

/-- an order of the bands, and a phase for each of them -/
structure Arrangement (b : Fin K → ℕ) where
  order : BandPerm b
  phase : Phases b

/-- numbers of the bands in another order -/
def reordered (σ : BandPerm b) (f : Bands b) : Bands b := fun k i => f k (σ k i)

/-- orbitals in another order and with phases -/
def rearranged (a : Arrangement b) (X : Orbitals n b) : Orbitals n b := fun k i j => X k i (a.order k j) * a.phase k j

/-- Two hosts that describe the same physics, in which bands have no names: told orbitals in another order and with
phases, and the occupations in the same order, they answer with the same energies, the same band energies in that order
and the same `H X` in that arrangement. `R a σ h x`: the orbitals in `h` are those in `x` in the arrangement `a`, the
occupations in `h` are those in `x` in the order `σ`. Nothing is said about an evaluation where the two orders differ. -/
structure BandHost (host' : Host η n b) (host : Host ξ n b) where
  R : Arrangement b → BandPerm b → η → ξ → Prop
  C : ∀ {a σ h x}, R a σ h x → host'.C h = rearranged a (host.C x)
  fn : ∀ {a σ h x}, R a σ h x → host'.fn h = reordered σ (host.fn x)
  setC : ∀ {a σ h x} (X : Orbitals n b) (u : Arrangement b), IsPhase u.phase → R a σ h x →
    (host'.setC (rearranged u X) h).1 = (host.setC X x).1 ∧ R u σ (host'.setC (rearranged u X) h).2 (host.setC X x).2
  setFn : ∀ {a σ h x} (f : Bands b) (τ : BandPerm b), R a σ h x →
    (host'.setFn (reordered τ f) h).1 = (host.setFn f x).1 ∧ R a τ (host'.setFn (reordered τ f) h).2 (host.setFn f x).2
  compute : ∀ {a h x}, R a a.order h x →
    (host'.compute h).1 = (host.compute x).1 ∧ R a a.order (host'.compute h).2 (host.compute x).2
  hphi : ∀ {a h x h1 x1}, R a a.order h x → host'.compute h = (some (), h1) → host.compute x = (some (), x1) →
    host'.hphi h1 = rearranged a (host.hphi x1)
  ek : ∀ {a h x h1 x1}, R a a.order h x → host'.compute h = (some (), h1) → host.compute x = (some (), x1) →
    host'.ek h1 = reordered a.order (host.ek x1)
  setMu : ∀ {a h x} (mu : ℝ), R a a.order h x →
    (host'.setMu mu h).1 = (host.setMu mu x).1 ∧ R a a.order (host'.setMu mu h).2 (host.setMu mu x).2
  energy : ∀ {a h x}, R a a.order h x →
    (host'.energy h).1 = (host.energy x).1 ∧ R a a.order (host'.energy h).2 (host.energy x).2
  print : ∀ {a σ h x}, R a σ h x →
    (host'.print h).1 = (host.print x).1 ∧ R a σ (host'.print h).2 (host.print x).2

/-- the occupations of band energies in another order are the occupations in that order -/
def OccFair (c : Cfg n b) : Prop :=
  ∀ (σ : BandPerm b) (e : Bands b), c.occ (reordered σ e) = (do let r ← c.occ e; pure (r.1, reordered σ r.2))

/-- the same call of the host, up to the order of the bands and phases of the orbitals -/
inductive BandCall : HostCall n b → HostCall n b → Prop
  | same (c : HostCall n b) : BandCall c c
  | setC (a : Arrangement b) (X : Orbitals n b) : IsPhase a.phase → BandCall (.setC (rearranged a X)) (.setC X)
  | setFn (σ : BandPerm b) (f : Bands b) : BandCall (.setFn (reordered σ f)) (.setFn f)

end Nlcg.Spec
