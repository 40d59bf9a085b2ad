import Verif.Spec.Host
import Mathlib.Order.Monotone.Basic

/-!
Orbitals that differ by a phase per band, hosts that differ by such phases, and runs that never meet a repeated
pseudo-energy.
-/

namespace Nlcg.Spec
open Matrix

variable {K : ℕ} {n b : Fin K → ℕ} {η ξ : Type}

/-- one complex number per band -/
abbrev Phases (b : Fin K → ℕ) := (k : Fin K) → Fin (b k) → ℂ

/-- all of modulus one -/
def IsPhase (v : Phases b) : Prop := ∀ k i, ‖v k i‖ = 1

/-- the orbitals with every band multiplied by its phase -/
def rephase (v : Phases b) (X : Orbitals n b) : Orbitals n b := fun k => X k * diagonal (v k)

/-- Two hosts that describe the same physics: told orbitals that differ by phases they answer with the same
energies, and with `H X` that differs by the same phases. `R v h x`: the orbitals in `h` are those in `x` times
the phases `v`. -/
structure GaugeHost (host' : Host η n b) (host : Host ξ n b) where
  R : Phases b → η → ξ → Prop
  C : ∀ {v h x}, R v h x → host'.C h = rephase v (host.C x)
  fn : ∀ {v h x}, R v h x → host'.fn h = host.fn x
  ek : ∀ {v h x}, R v h x → host'.ek h = host.ek x
  setC : ∀ {v h x} (X : Orbitals n b) (u : Phases b), IsPhase u → R v h x →
    (host'.setC (rephase u X) h).1 = (host.setC X x).1 ∧ R u (host'.setC (rephase u X) h).2 (host.setC X x).2
  setFn : ∀ {v h x} (f : Bands b), R v h x →
    (host'.setFn f h).1 = (host.setFn f x).1 ∧ R v (host'.setFn f h).2 (host.setFn f x).2
  compute : ∀ {v h x}, R v h x →
    (host'.compute h).1 = (host.compute x).1 ∧ R v (host'.compute h).2 (host.compute x).2
  hphi : ∀ {v h x h1 x1}, R v h x → host'.compute h = (some (), h1) → host.compute x = (some (), x1) →
    host'.hphi h1 = rephase v (host.hphi x1)
  setMu : ∀ {v h x} (mu : ℝ), R v h x →
    (host'.setMu mu h).1 = (host.setMu mu x).1 ∧ R v (host'.setMu mu h).2 (host.setMu mu x).2
  energy : ∀ {v h x}, R v h x → (host'.energy h).1 = (host.energy x).1 ∧ R v (host'.energy h).2 (host.energy x).2
  print : ∀ {v h x}, R v h x → (host'.print h).1 = (host.print x).1 ∧ R v (host'.print h).2 (host.print x).2

/-- LAPACK returns the eigenvalues in ascending order -/
def EighSorted (la : Lapack) : Prop := ∀ {n : ℕ} (A : Mat n n), A.IsHermitian → Monotone (la.heevd A).1.1

/-- the pseudo-Hamiltonians of a step have no repeated eigenvalue -/
def SimpleStep (c : Cfg n b) (pt : Point n b) (dir : Dir n b) (t : ℝ) : Prop :=
  ∀ k, Function.Injective (c.la.heevd (advanceEta t (pt.eta k) (dir.zeta k))).1.1

open Classical in
/-- The program, except that a step that meets a repeated eigenvalue is undefined behaviour. -/
noncomputable def simpleOps (host : Host η n b) (c : Cfg n b) : Ops ℝ (SState η n b) (Point n b) (Dir n b) :=
  { solverOps host c with
    geo := fun pt dir t s => if SimpleStep c pt dir t then solverGeo host c pt dir t s else (.ub, s) }

/-- the run never meets a repeated pseudo-energy -/
def MeetsSimple (host : Host η n b) (c : Cfg n b) (prm : NlcgParams ℝ) (fuel rank : ℕ)
    (w : NState ℝ (SState η n b)) : Prop := ∀ z, nlcg (simpleOps host c) prm fuel rank w ≠ some (.ub, z)

/-- the slope at the point that a first step of length `t` leads to -/
noncomputable def slopeAfter (host : Host η n b) (c : Cfg n b) (t : ℝ) : SM (SState η n b) ℝ := do
  let pt ← solverSetup host c
  let d ← solverRestarted host c pt
  let r ← solverGeo host c pt d.2 t
  let q ← solverRefresh host r
  let e ← solverRestarted host c q
  pure e.1

/-- the same call of the host, up to phases of the orbitals -/
inductive GaugeCall : HostCall n b → HostCall n b → Prop
  | same (c : HostCall n b) : GaugeCall c c
  | setC (v : Phases b) (X : Orbitals n b) : IsPhase v → GaugeCall (.setC (rephase v X)) (.setC X)

end Nlcg.Spec
