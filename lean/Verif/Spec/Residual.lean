import Verif.Spec.Host

/-!
# How far a point is from being stationary

Three non-negative numbers for one k-point, written without reference to the program. All three
vanish at a self-consistent solution. Then what it means for the host to be left at a point where
they are small.
-/

namespace Nlcg.Spec
open Matrix
variable {N B : ℕ}

/-- residual of the eigenvalue equations `H X = S X L`, orbitals weighted by their occupation -/
noncomputable def eigenResidual (H S : Mat N N) (X : Mat N B) (f : Fin B → ℝ) (L : Mat B B) : ℝ :=
  ∑ j, f j * ∑ i, Complex.normSq ((H * X - S * X * L) i j)

/-- coupling by `H` of orbitals with different occupation, weighted by minus the difference quotient of
the occupations -/
noncomputable def coupling (H : Mat N N) (X : Mat N B) (f e : Fin B → ℝ) : ℝ :=
  ∑ j, ∑ i, if |e j - e i| < 1 / 10 ^ 10 then 0 else
    (f i - f j) / (e j - e i) * Complex.normSq ((Xᴴ * (H * X)) i j)

/-- deviation of the pseudo-energies `e` from the orbital energies `h` minus `c`, with weights `d` -/
def mismatch (h e d : Fin B → ℝ) (c : ℝ) : ℝ := ∑ i, d i * (h i - e i - c) ^ 2

/-- `P` is bounded below by the number `p` -/
def BoundedBelow (p : ℝ) (P : Mat N N) : Prop :=
  ∀ v : Fin N → ℂ, p * ∑ i, Complex.normSq (v i) ≤ (star v ⬝ᵥ (P *ᵥ v)).re

variable {K : ℕ} {n b : Fin K → ℕ} {η : Type}

/-- The host is at a point where minus each part of the gradient is less than `tol`: there are
pseudo-energies `e` that belong to its occupations, multipliers `L` and a shift `s` for which the
residuals, summed over the k-points, are small. -/
def NearlyStationary (host : Host η n b) (c : Cfg n b) (p tol : ℝ) (h : η) : Prop :=
  ∃ (H : (k : Fin K) → Mat (n k) (n k)) (e : Bands b) (L : (k : Fin K) → Mat (b k) (b k)) (s : ℝ),
    Computed host h H ∧ (∀ k, SOrtho (c.S k) (host.C h k)) ∧
    host.fn h = occs c.t c.T c.mo e (host.mu h) ∧
    2 * p * ∑ k, c.wk k * eigenResidual (H k) (c.S k) (host.C h k) (host.fn h k) (L k) < tol ∧
    c.kappa / (kB * c.T) * ∑ k, c.wk k * mismatch (host.ek h k) (e k)
      (fun i => (smearFns c.t).delta ((host.mu h - e k i) / (kB * c.T)) c.mo) s < tol ∧
    c.kappa * ∑ k, c.wk k * coupling (H k) (host.C h k) (host.fn h k) (e k) < tol

end Nlcg.Spec
