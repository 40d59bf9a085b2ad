import Verif.Spec.Represent

/-!
Time reversal: the orbitals of `-k` are the complex conjugates of those of `k`.
-/

namespace Nlcg.Spec
open Matrix

variable {K : ℕ} {n b : Fin K → ℕ} {η : Type}

/-- the complex conjugate of a matrix, or the matrix itself -/
noncomputable def cj (f : Bool) {m p : ℕ} (A : Mat m p) : Mat m p := if f then A.map (starRingEnd ℂ) else A

/-- the k-points marked by `σ` are reversed -/
noncomputable def reversed (σ : Fin K → Bool) (X : Orbitals n b) : Orbitals n b := fun k => cj (σ k) (X k)

/-- the host that stores the k-points marked by `σ` as their time-reversed partners -/
noncomputable def reversedHost (σ : Fin K → Bool) (host : Host η n b) : Host η n b :=
  { host with
    setC := fun X h => host.setC (reversed σ X) h
    C := fun h => reversed σ (host.C h)
    hphi := fun h => reversed σ (host.hphi h) }

/-- the operators of the reversed k-points -/
noncomputable def reversedCfg (σ : Fin K → Bool) (c : Cfg n b) : Cfg n b :=
  { c with S := fun k => cj (σ k) (c.S k), P := fun k => cj (σ k) (c.P k) }

/-- The LAPACK routines give conjugate answers to conjugate questions (they consist of additions, multiplications,
divisions, moduli and complex conjugations). -/
structure LapackReal (la : Lapack) : Prop where
  potrf : ∀ {n : ℕ} (A : Mat n n), la.potrf (cj true A) = (cj true (la.potrf A).1, (la.potrf A).2)
  potrs : ∀ {n m : ℕ} (A : Mat n n) (B : Mat n m),
    la.potrs (cj true A) (cj true B) = (cj true (la.potrs A B).1, (la.potrs A B).2)
  heevd : ∀ {n : ℕ} (A : Mat n n),
    la.heevd (cj true A) = (((la.heevd A).1.1, cj true (la.heevd A).1.2), (la.heevd A).2)

/-- The host has time-reversal symmetry: `R` relates states that differ by time reversal, and calls with reversed
orbitals lead to the reversed state. -/
structure TimeSymmetric (host : Host η n b) where
  R : η → η → Prop
  C : ∀ {h x}, R h x → ∀ k, host.C h k = cj true (host.C x k)
  hphi : ∀ {h x}, R h x → ∀ k, host.hphi h k = cj true (host.hphi x k)
  fn : ∀ {h x}, R h x → host.fn h = host.fn x
  ek : ∀ {h x}, R h x → host.ek h = host.ek x
  setC : ∀ {h x} X, R h x → (host.setC (fun k => cj true (X k)) h).1 = (host.setC X x).1 ∧
    R (host.setC (fun k => cj true (X k)) h).2 (host.setC X x).2
  setFn : ∀ {h x} f, R h x → (host.setFn f h).1 = (host.setFn f x).1 ∧ R (host.setFn f h).2 (host.setFn f x).2
  compute : ∀ {h x}, R h x → (host.compute h).1 = (host.compute x).1 ∧ R (host.compute h).2 (host.compute x).2
  setMu : ∀ {h x} mu, R h x → (host.setMu mu h).1 = (host.setMu mu x).1 ∧ R (host.setMu mu h).2 (host.setMu mu x).2
  energy : ∀ {h x}, R h x → (host.energy h).1 = (host.energy x).1 ∧ R (host.energy h).2 (host.energy x).2
  print : ∀ {h x}, R h x → (host.print h).1 = (host.print x).1 ∧ R (host.print h).2 (host.print x).2

end Nlcg.Spec
