import Verif.Spec.Variational

/-!
# Specification vocabulary: thermodynamics of given bands

The quantities that a user reads off a calculation: band energy, entropy (in units of `kB`), free energy.
-/

namespace Nlcg.Spec
open Matrix Real

variable {K : ℕ} {n b : Fin K → ℕ}

/-- energy of the bands `e` with occupations `f` -/
def levelSum (wk : Fin K → ℝ) (e f : Bands b) : ℝ := ∑ k, wk k * ∑ i, e k i * f k i

/-- entropy, as the library computes it from the band energies -/
noncomputable def entropySum (t : SmearType) (T mo : ℝ) (wk : Fin K → ℝ) (e : Bands b) (mu : ℝ) : ℝ :=
  ∑ k, wk k * ∑ i, (smearFns t).entropy ((mu - e k i) / (kB * T)) mo

/-- free energy of the bands: energy minus temperature times entropy -/
noncomputable def bandFree (t : SmearType) (T mo : ℝ) (wk : Fin K → ℝ) (e : Bands b) (mu : ℝ) : ℝ :=
  levelSum wk e (occs t T mo e mu) - kB * T * entropySum t T mo wk e mu

/-- entropy of the exact solution -/
noncomputable def exactEntropy (t : SmearType) (T mo : ℝ) (wk : Fin K → ℝ) (e : Bands b) (mu : ℝ) : ℝ :=
  ∑ k, wk k * ∑ i, mo * idealEntropy t ((mu - e k i) / (kB * T))

/-- energy of the exact solution -/
noncomputable def exactLevelSum (t : SmearType) (T mo : ℝ) (wk : Fin K → ℝ) (e : Bands b) (mu : ℝ) : ℝ :=
  ∑ k, wk k * ∑ i, e k i * (mo * idealFn t ((mu - e k i) / (kB * T)))

/-- what the cut-offs of the code can contribute per band: nothing, or less than `1e-13` -/
noncomputable def slack : SmearType → ℝ
  | .fermiDirac => 42 * exp (-35)
  | .gaussianSpline => exp (-35)
  | _ => 0

/-- free energy of orbitals `X` with pseudo-energies `ek` and chemical potential `mu`, for any energy `E` -/
noncomputable def stateFree (E : Orbitals n b → Bands b → ℝ) (t : SmearType) (T mo : ℝ) (wk : Fin K → ℝ)
    (X : Orbitals n b) (ek : Bands b) (mu : ℝ) : ℝ :=
  E X (occs t T mo ek mu) - kB * T * entropySum t T mo wk ek mu

/-- state of least free energy, among those with the given overlap operator and number of electrons -/
structure Equilibrium (E : Orbitals n b → Bands b → ℝ) (S : (k : Fin K) → Mat (n k) (n k)) (t : SmearType)
    (T mo : ℝ) (wk : Fin K → ℝ) (N : ℝ) (X : Orbitals n b) (ek : Bands b) (mu : ℝ) : Prop where
  ortho : ∀ k, SOrtho (S k) (X k)
  count : electrons wk (occs t T mo ek mu) = N
  least : ∀ X' ek' mu', (∀ k, SOrtho (S k) (X' k)) → electrons wk (occs t T mo ek' mu') = N →
    stateFree E t T mo wk X ek mu ≤ stateFree E t T mo wk X' ek' mu'

end Nlcg.Spec
