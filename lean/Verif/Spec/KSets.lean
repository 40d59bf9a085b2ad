import Verif.Model.KSets

/-! The host's lists of k-points belong together. -/

namespace Nlcg.Spec
variable {β : Type}

/-- weights, band energies and orbitals belong to the same k-points, and there are occupations and `H X` for them -/
structure OneSet (h : KHost β) : Prop where
  energies : ∀ k, k ∈ KMap.keys h.ek ↔ k ∈ KMap.keys h.wk
  orbitals : ∀ k, k ∈ KMap.keys h.C ↔ k ∈ KMap.keys h.wk
  hphi : ∀ k ∈ KMap.keys h.wk, k ∈ KMap.keys h.hphi
  fn : ∀ k ∈ KMap.keys h.wk, k ∈ KMap.keys h.fn

/-- the numerical part does not fail -/
structure Total (g : KNum β) : Prop where
  search : ∀ e, ∃ mu, g.search e = .ok mu
  dF : ∀ mu a b c, ∃ v, g.dF mu a b c = .ok v
  dir : ∀ mu dF s x e f hx w, ∃ r, g.dir mu dF s x e f hx w = .ok r
  step : ∀ x e zx ze, ∃ r, g.step x e zx ze = .ok r

end Nlcg.Spec
