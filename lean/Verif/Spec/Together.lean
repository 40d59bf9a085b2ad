import Verif.Model.Spmd

/-!
Replies that two ranks get to the same collective operation. What a rank can read from the host about its own k-points
(`View`) is its own business; everything else is the same number on all ranks, or should be.
-/

namespace Nlcg.Spec
open Nlcg

variable {K R : ℕ} {own : Fin K → Fin R} {n b : Fin K → ℕ} {r r' : Fin R}

/-- the two ranks get the same outcome and the same numbers -/
inductive Shared : Reply own n b r → Reply own n b r' → Prop
  | host (ok : Bool) (v : View own n b r) (v' : View own n b r') : Shared (.host ok v) (.host ok v')
  | energy (e : Option ℝ) (v : View own n b r) (v' : View own n b r') : Shared (.energy e v) (.energy e v')
  | real (x : ℝ) : Shared (.real x) (.real x)
  | bands (e : Bands b) : Shared (.bands e) (.bands e)
  | weights (w : Fin K → ℝ) : Shared (.weights w) (.weights w)

/-- the same, where the energies may differ by `ε` -/
inductive Nearly (ε : ℝ) : Reply own n b r → Reply own n b r' → Prop
  | shared {a : Reply own n b r} {a' : Reply own n b r'} : Shared a a' → Nearly ε a a'
  | energy (e e' : ℝ) (v : View own n b r) (v' : View own n b r') : |e - e'| ≤ ε →
      Nearly ε (.energy (some e) v) (.energy (some e') v')

/-- what must be the same on all ranks: temperature, search for the chemical potential; and no eigensolver reports a
failure -/
structure SameSetup (c : LCfg own n b r) (c' : LCfg own n b r') : Prop where
  T : c.T = c'.T
  occ : c.occ = c'.occ
  total : ∀ {m : ℕ} (A : Mat m m), (c.la.heevd A).2 = 0
  total' : ∀ {m : ℕ} (A : Mat m m), (c'.la.heevd A).2 = 0

end Nlcg.Spec
