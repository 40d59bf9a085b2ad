import Verif.Spec.Represent

/-!
Closed and open shells: the same system with `m` equivalent channels (spins) that hold `mo / m` electrons per
band each, instead of one channel that holds `mo`.
-/

namespace Nlcg.Spec
open Matrix

variable {K L : ℕ} {n b : Fin K → ℕ} {n' : Fin L → ℕ} {η ξ : Type}

/-- occupations of one of `m` channels -/
noncomputable def perChannel (m : ℕ) (f : Bands b) : Bands b := fun k i => f k i / m

/-- the parameters of the open shell `c'` and of the closed shell `c`: each k-point of `c` occurs `m` times
in `c'`, with its full weight and the `m`-th part of the occupancy -/
structure OpenShell (m : ℕ) (e : Fin L → Fin K) (W : (k : Fin L) → Mat (n' k) (n (e k)))
    (c' : Cfg n' (copies b e)) (c : Cfg n b) : Prop where
  isometry : ∀ k, (W k)ᴴ * W k = 1
  channels : ∀ k, (Finset.univ.filter fun l => e l = k).card = m
  weights : ∀ l, c'.wk l = c.wk (e l)
  nonzero : ∀ k, c.wk k ≠ 0
  S : ∀ k, c'.S k * W k = W k * c.S (e k)
  P : ∀ k, c'.P k * W k = W k * c.P (e k)
  occ : ∀ x, c'.occ (spread e x) = (do let r ← c.occ x; pure (r.1, perChannel m (spread e r.2)))
  la : c'.la = c.la
  t : c'.t = c.t
  T : c'.T = c.T
  kappa : c'.kappa = c.kappa
  mo : c'.mo = c.mo / m

/-- The hosts describe the same system: `R` relates their states. -/
structure OpenHost (m : ℕ) (e : Fin L → Fin K) (W : (k : Fin L) → Mat (n' k) (n (e k)))
    (host' : Host η n' (copies b e)) (host : Host ξ n b) where
  R : η → ξ → Prop
  C : ∀ {h x}, R h x → host'.C h = expand e W (host.C x)
  hphi : ∀ {h x}, R h x → host'.hphi h = expand e W (host.hphi x)
  fn : ∀ {h x}, R h x → host'.fn h = perChannel m (spread e (host.fn x))
  ek : ∀ {h x}, R h x → host'.ek h = spread e (host.ek x)
  setC : ∀ {h x} X, R h x → (host'.setC (expand e W X) h).1 = (host.setC X x).1 ∧
    R (host'.setC (expand e W X) h).2 (host.setC X x).2
  setFn : ∀ {h x} f, R h x → (host'.setFn (perChannel m (spread e f)) h).1 = (host.setFn f x).1 ∧
    R (host'.setFn (perChannel m (spread e f)) h).2 (host.setFn f x).2
  compute : ∀ {h x}, R h x → (host'.compute h).1 = (host.compute x).1 ∧ R (host'.compute h).2 (host.compute x).2
  setMu : ∀ {h x} mu, R h x → (host'.setMu mu h).1 = (host.setMu mu x).1 ∧ R (host'.setMu mu h).2 (host.setMu mu x).2
  energy : ∀ {h x}, R h x → (host'.energy h).1 = (host.energy x).1 ∧ R (host'.energy h).2 (host.energy x).2
  print : ∀ {h x}, R h x → (host'.print h).1 = (host.print x).1 ∧ R (host'.print h).2 (host.print x).2

end Nlcg.Spec
