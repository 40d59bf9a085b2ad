import Verif.Spec.FreeEnergy
import Verif.Spec.LinAlg
import Verif.Spec.Smearing
import Mathlib.Analysis.Calculus.Deriv.Basic
import Mathlib.Analysis.Complex.Basic

/-!
# Specification vocabulary: free energy along a search path
-/

namespace Nlcg.Spec
open Matrix Filter Topology

variable {K : ℕ} {n b : Fin K → ℕ}

/-- density matrix of orbitals `X` with occupations `f` -/
def densityMat {N B : ℕ} (X : Mat N B) (f : Fin B → ℝ) : Mat N N :=
  X * diagonal (fun i => (f i : ℂ)) * Xᴴ

/-- `H k` is the Hamiltonian of the energy functional `E` at the density matrices `D0`: along every
differentiable path of Hermitian density matrices through `D0` the energy changes at the rate
`sum_k w_k tr(H_k D_k')`. -/
def Hamiltonian (w : Fin K → ℝ) (E : ((k : Fin K) → Mat (n k) (n k)) → ℝ)
    (D0 H : (k : Fin K) → Mat (n k) (n k)) : Prop :=
  ∀ (D : ℝ → (k : Fin K) → Mat (n k) (n k)) (D' : (k : Fin K) → Mat (n k) (n k)), D 0 = D0 →
    (∀ s k, (D s k).IsHermitian) →
    (∀ k i j, HasDerivAt (fun s => D s k i j) (D' k i j) 0) →
    HasDerivAt (fun s => E (D s)) (∑ k, w k * (H k * D' k).trace.re) 0

/-- free energy of orbitals, pseudo-energies and chemical potential: energy of the density matrices
plus the reported entropy term -/
noncomputable def freeEnergyAt (t : SmearType) (T mo : ℝ) (w : Fin K → ℝ)
    (E : ((k : Fin K) → Mat (n k) (n k)) → ℝ) (X : (k : Fin K) → Mat (n k) (b k)) (e : Bands b)
    (mu : ℝ) : ℝ :=
  E (fun k => densityMat (X k) (occs t T mo e mu k))
    + entropyTerm t T mo mu (List.ofFn fun k => (w k, List.ofFn (e k)))

/-- steps of any length `s` near 0 along `z` succeed and lead to `o s` -/
def SearchPath (la : Lapack) (ks : (k : Fin K) → KIn (n k) (b k)) (z : Dir n b)
    (o : ℝ → (k : Fin K) → GeoOut (n k) (b k)) : Prop :=
  ∀ᶠ s : ℝ in 𝓝 0, ∀ k, geodesicUs la (ks k).X (makeDiag (ks k).e) (z.zx k) (z.zeta k) (ks k).S s
    = .ok (o s k)

/-- the chemical potential `m` keeps the number of electrons along the path -/
structure PathCharge (p : DirParams) (ks : (k : Fin K) → KIn (n k) (b k))
    (o : ℝ → (k : Fin K) → GeoOut (n k) (b k)) (m : ℝ → ℝ) : Prop where
  start : m 0 = p.mu
  smooth : DifferentiableAt ℝ m 0
  fixed : ∀ᶠ s : ℝ in 𝓝 0,
    charge p.t p.T p.mo (fun k => (ks k).wk) (fun k => (o s k).ek) (m s)
      = charge p.t p.T p.mo (fun k => (ks k).wk) (fun k => (ks k).e) p.mu

/-- No smearing function is at a cut-off, and the smearing is none of those for which `C15` fails. -/
structure Regular (p : DirParams) (ks : (k : Fin K) → KIn (n k) (b k)) : Prop where
  notCold : p.t ≠ .cold
  spline : p.t = .gaussianSpline → p.mo = 1
  temp : 0 < p.T
  cutoff : ∀ k i, (p.mu - (ks k).e i) / (kB * p.T) ∈ inside p.t
  dos : 1 / 10 ^ 12 ≤
    |dmuDeta (smearFns p.t) (fun k => (ks k).e) (fun k => (ks k).wk) p.mu p.T p.mo|

/-- free energy after a step of length `s` -/
noncomputable def pathEnergy (p : DirParams) (ks : (k : Fin K) → KIn (n k) (b k))
    (E : ((k : Fin K) → Mat (n k) (n k)) → ℝ) (o : ℝ → (k : Fin K) → GeoOut (n k) (b k))
    (m : ℝ → ℝ) (s : ℝ) : ℝ :=
  freeEnergyAt p.t p.T p.mo (fun k => (ks k).wk) E (fun k => (o s k).X) (fun k => (o s k).ek) (m s)

end Nlcg.Spec
