import Verif.Model.Solver

/-! More bands for the same system. -/

namespace Nlcg.Spec
open Finset

variable {K : ℕ} {b e : Fin K → ℕ}

/-- the bands `ek` and, at each k-point, the further bands `more` -/
def withBands (ek : Bands b) (more : Bands e) : Bands fun k => b k + e k := fun k => Fin.append (ek k) (more k)

/-- occupations of the old bands -/
def oldBands (f : Bands fun k => b k + e k) : Bands b := fun k i => f k (Fin.castAdd (e k) i)

/-- occupations of the further bands -/
def newBands (f : Bands fun k => b k + e k) : Bands e := fun k i => f k (Fin.natAdd (b k) i)

/-- charge in some bands -/
noncomputable def chargeIn (wk : Fin K → ℝ) {c : Fin K → ℕ} (f : Bands c) : ℝ := ∑ k, wk k * ∑ i, f k i

/-- charge that is in different places -/
noncomputable def chargeMoved (wk : Fin K → ℝ) {c : Fin K → ℕ} (f f' : Bands c) : ℝ := ∑ k, wk k * ∑ i, |f k i - f' k i|

/-- the occupations bands would have at the chemical potential `mu` -/
noncomputable def occupationsAt (t : SmearType) (p : OccParams ℝ) (mu : ℝ) {c : Fin K → ℕ} (ek : Bands c) : Bands c :=
  fun k i => (smearFns t).fn ((mu - ek k i) / (kB * p.T)) p.occ

/-- the same parameters with `m` electrons more -/
def moreElectrons (p : OccParams ℝ) (m : ℝ) : OccParams ℝ := { p with ne := p.ne + m }

end Nlcg.Spec
