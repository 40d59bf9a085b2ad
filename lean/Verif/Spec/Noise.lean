import Verif.Spec.Host
import Verif.Model.Driver

/-!
Energies that carry an error: what a host promises whose total energies are accurate to `ε` only, as
those of a self-consistent-field code are.
-/

namespace Nlcg.Spec
open Nlcg Matrix

/-- Whatever the history, the energy that an evaluation leaves behind is within `ε` of the energy `E`
of the point evaluated; a step of length 0 does not change the point's energy `E`; and nothing but an
evaluation changes the energy that is stored. -/
structure Noisy {σ ρ δ : Type} (ops : Ops ℝ σ ρ δ) (E : ρ → ℝ) (ε : ℝ) : Prop where
  setup : ∀ s r s', ops.setup s = (.ok r, s') → |ops.getF s' - E r| ≤ ε
  geo : ∀ pt dir t s r s', ops.geo pt dir t s = (.ok r, s') → |ops.getF s' - E r| ≤ ε
  zero : ∀ pt dir s r s', ops.geo pt dir 0 s = (.ok r, s') → E r = E pt
  refresh : ∀ r s pt s', ops.refresh r s = (.ok pt, s') → E pt = E r ∧ ops.getF s' = ops.getF s
  restarted : ∀ pt s, ops.getF (ops.restarted pt s).2 = ops.getF s
  conjugated : ∀ fr pt dir s, ops.getF (ops.conjugated fr pt dir s).2 = ops.getF s
  gather : ∀ pt s, ops.getF (ops.gather pt s).2 = ops.getF s
  hostPrint : ∀ s, ops.getF (ops.hostPrint s).2 = ops.getF s

/-- The host's energy is within `ε` of a function of the density matrices `X f X^H`, whatever the
history; the chemical potential does not depend on the order of the bands. `ε = 0` is `EnergyOf`. -/
structure EnergyWithin {K : ℕ} {n b : Fin K → ℕ} {η : Type} (host : Host η n b) (c : Cfg n b)
    (E : Orbitals n b → Bands b → ℝ) (ε : ℝ) : Prop where
  energy : ∀ h e h', Admissible c (host.C h) (host.fn h) → host.energy h = (some e, h') →
    |e - E (host.C h) (host.fn h)| ≤ ε
  density : ∀ X X' f f', Admissible c X f → Admissible c X' f' →
    (∀ k, X' k * diagonal (fun i => (f' k i : ℂ)) * (X' k)ᴴ
      = X k * diagonal (fun i => (f k i : ℂ)) * (X k)ᴴ) → E X' f' = E X f
  occ : ∀ ek ek' mu mu' f f', (∀ k, (List.ofFn (ek' k)).Perm (List.ofFn (ek k))) →
    c.occ ek = .ok (mu, f) → c.occ ek' = .ok (mu', f') → mu' = mu

/-- a report: iteration, free energy, entropy, slope -/
abbrev Report := ℕ × ℝ × ℝ × ℝ

/-- the free energy reported later exceeds the one reported earlier by at most `ε` per iteration in
between, and `ε` -/
def RisesWithin (ε : ℝ) (x y : Report) : Prop :=
  x.1 ≤ y.1 ∧ y.2.1 ≤ x.2.1 + ε * ((y.1 - x.1 : ℕ) + 1)

/-- no search of the iterations `i, …, j - 1` ended with a reset -/
def NoReset (t : List (Ev ℝ)) (i j : ℕ) : Prop := ∀ k, i ≤ k → k < j → Ev.found k true ∉ t

end Nlcg.Spec
