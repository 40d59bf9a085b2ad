import Verif.Spec.Simulation
import Verif.Model.Solver

/-!
What it means that two inputs describe the same system.

The k-points of the second input are copies of those of the first: k-point `k` of the second is a copy of
`e k`, its orbitals have the coefficients `W k * X` in another basis (`W k` is an isometry, which covers the
order of plane waves, additional plane waves with coefficient zero, and symmetry operations), and the weights
of all copies of a k-point add up to its weight.
-/

namespace Nlcg.Spec
open Matrix

variable {K L : ℕ} {n b : Fin K → ℕ} {n' : Fin L → ℕ} {η ξ : Type}

/-- the bands of the copies -/
abbrev copies (b : Fin K → ℕ) (e : Fin L → Fin K) : Fin L → ℕ := fun k => b (e k)

/-- orbitals of the copies -/
def expand (e : Fin L → Fin K) (W : (k : Fin L) → Mat (n' k) (n (e k))) (X : Orbitals n b) :
    Orbitals n' (copies b e) := fun k => W k * X (e k)

/-- band energies and occupations of the copies -/
def spread (e : Fin L → Fin K) (x : Bands b) : Bands (copies b e) := fun k => x (e k)

/-- the call with the data of the copies -/
def expandCall (e : Fin L → Fin K) (W : (k : Fin L) → Mat (n' k) (n (e k))) :
    HostCall n b → HostCall n' (copies b e)
  | .setC X => .setC (expand e W X)
  | .setFn f => .setFn (spread e f)
  | .setMu mu => .setMu mu
  | .compute => .compute
  | .energy => .energy
  | .print => .print

/-- the parameters describe the same system -/
structure SameSystem (e : Fin L → Fin K) (W : (k : Fin L) → Mat (n' k) (n (e k))) (c' : Cfg n' (copies b e))
    (c : Cfg n b) : Prop where
  isometry : ∀ k, (W k)ᴴ * W k = 1
  weights : ∀ k, ∑ l with e l = k, c'.wk l = c.wk k
  nonzero : (∀ k, c.wk k ≠ 0) ∧ ∀ l, c'.wk l ≠ 0
  S : ∀ k, c'.S k * W k = W k * c.S (e k)
  P : ∀ k, c'.P k * W k = W k * c.P (e k)
  occ : ∀ x, c'.occ (spread e x) = (do let r ← c.occ x; pure (r.1, spread e r.2))
  la : c'.la = c.la
  t : c'.t = c.t
  T : c'.T = c.T
  kappa : c'.kappa = c.kappa
  mo : c'.mo = c.mo

/-- The hosts describe the same system: `R` relates their states. -/
structure SameHost (e : Fin L → Fin K) (W : (k : Fin L) → Mat (n' k) (n (e k)))
    (host' : Host η n' (copies b e)) (host : Host ξ n b) where
  R : η → ξ → Prop
  C : ∀ {h x}, R h x → host'.C h = expand e W (host.C x)
  hphi : ∀ {h x}, R h x → host'.hphi h = expand e W (host.hphi x)
  fn : ∀ {h x}, R h x → host'.fn h = spread e (host.fn x)
  ek : ∀ {h x}, R h x → host'.ek h = spread e (host.ek x)
  setC : ∀ {h x} X, R h x → (host'.setC (expand e W X) h).1 = (host.setC X x).1 ∧
    R (host'.setC (expand e W X) h).2 (host.setC X x).2
  setFn : ∀ {h x} f, R h x → (host'.setFn (spread e f) h).1 = (host.setFn f x).1 ∧
    R (host'.setFn (spread e f) h).2 (host.setFn f x).2
  compute : ∀ {h x}, R h x → (host'.compute h).1 = (host.compute x).1 ∧ R (host'.compute h).2 (host.compute x).2
  setMu : ∀ {h x} mu, R h x → (host'.setMu mu h).1 = (host.setMu mu x).1 ∧ R (host'.setMu mu h).2 (host.setMu mu x).2
  energy : ∀ {h x}, R h x → (host'.energy h).1 = (host.energy x).1 ∧ R (host'.energy h).2 (host.energy x).2
  print : ∀ {h x}, R h x → (host'.print h).1 = (host.print x).1 ∧ R (host'.print h).2 (host.print x).2

end Nlcg.Spec
