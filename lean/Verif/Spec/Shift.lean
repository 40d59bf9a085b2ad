import Verif.Spec.Host

/-!
What it means to move the zero of energy by `a`: all band energies are larger by `a`, the Hamiltonian by `a`
times the overlap, the chemical potential by `a`; total energies stay (the electrons and the ions they
compensate get opposite contributions).
-/

namespace Nlcg.Spec
open Matrix

variable {K : ℕ} {n b : Fin K → ℕ} {η ξ : Type}

/-- band energies above the new zero -/
def raise (a : ℝ) (x : Bands b) : Bands b := fun k i => x k i + a

/-- the search for the chemical potential moves along with the band energies -/
def MovesAlong (a : ℝ) (occ : Bands b → Res (ℝ × Bands b)) : Prop :=
  ∀ x, occ (raise a x) = (do let r ← occ x; pure (r.1 + a, r.2))

/-- the eigensolver moves along: same eigenvectors, eigenvalues larger by `a` -/
def EighMovesAlong (a : ℝ) (la : Lapack) : Prop :=
  ∀ {m : ℕ} (A : Mat m m), A.IsHermitian →
    la.heevd (A + (a : ℂ) • 1) = ((fun i => (la.heevd A).1.1 i + a, (la.heevd A).1.2), (la.heevd A).2)

/-- `host'` is `host` with another zero of energy; `R` relates their states. The band energies are expectation
values, so they are larger by `a` where the orbitals are normalised. -/
structure Raised (a : ℝ) (S : (k : Fin K) → Mat (n k) (n k)) (host' : Host η n b) (host : Host ξ n b) where
  R : η → ξ → Prop
  C : ∀ {h x}, R h x → host'.C h = host.C x
  hphi : ∀ {h x}, R h x → host'.hphi h = fun k => host.hphi x k + (a : ℂ) • (S k * host.C x k)
  fn : ∀ {h x}, R h x → host'.fn h = host.fn x
  ek : ∀ {h x}, R h x → (∀ k, SOrtho (S k) (host.C x k)) → host'.ek h = raise a (host.ek x)
  setC : ∀ {h x} X, R h x → (host'.setC X h).1 = (host.setC X x).1 ∧ R (host'.setC X h).2 (host.setC X x).2
  setFn : ∀ {h x} f, R h x → (host'.setFn f h).1 = (host.setFn f x).1 ∧ R (host'.setFn f h).2 (host.setFn f x).2
  compute : ∀ {h x}, R h x → (host'.compute h).1 = (host.compute x).1 ∧ R (host'.compute h).2 (host.compute x).2
  setMu : ∀ {h x} mu, R h x → (host'.setMu (mu + a) h).1 = (host.setMu mu x).1 ∧
    R (host'.setMu (mu + a) h).2 (host.setMu mu x).2
  energy : ∀ {h x}, R h x → (host'.energy h).1 = (host.energy x).1 ∧ R (host'.energy h).2 (host.energy x).2
  print : ∀ {h x}, R h x → (host'.print h).1 = (host.print x).1 ∧ R (host'.print h).2 (host.print x).2

/-- `x` has finitely many decimal places -/
def Decimal (x : ℝ) : Prop := ∃ (k : ℕ) (m : ℤ), x * 10 ^ k = m

end Nlcg.Spec
