import Verif.Model.Smearing
import Mathlib.Data.Complex.Basic
import Mathlib.LinearAlgebra.Matrix.Defs
import Mathlib.Algebra.BigOperators.Pi

/-!
# Gradient with respect to the pseudo-Hamiltonian

`src/pseudo_hamiltonian/grad_eta.hpp`, exact arithmetic. The k-points of all ranks together are
`k : Fin N`, k-point `k` has `n k` bands. A loop over a local container followed by an `allreduce`
is a sum over all `k` (order and distribution do not matter in exact arithmetic; that the reduction
adds up every rank's value once is `C38`). The loops over bands are `Kokkos::Serial` reductions.
-/

namespace Nlcg
open Real

/-- one real number per k-point and band -/
abbrev Bands {N : ℕ} (n : Fin N → ℕ) := (k : Fin N) → Fin (n k) → ℝ

/-- `GradEtaHelper::dFdmu`, `src/pseudo_hamiltonian/grad_eta.hpp:15-50` -/
noncomputable def dFdmu (sf : SmearFns ℝ) {N : ℕ} {n : Fin N → ℕ} (hii en : Bands n)
    (wk : Fin N → ℝ) (mu T mo : ℝ) : ℝ :=
  let kT := kB * T
  ∑ k, (∑ i, (hii k i - en k i) * sf.delta ((en k i - mu) / kT) mo) * wk k

/-- `GradEtaHelper::dmu_deta`, `src/pseudo_hamiltonian/grad_eta.hpp:58-81` -/
noncomputable def dmuDeta (sf : SmearFns ℝ) {N : ℕ} {n : Fin N → ℕ} (en : Bands n)
    (wk : Fin N → ℝ) (mu T mo : ℝ) : ℝ :=
  let kT := kB * T
  ∑ k, ∑ i, sf.delta ((en k i - mu) / kT) mo * wk k

/-- `_delta_eta::operator()`, `src/pseudo_hamiltonian/grad_eta.hpp:90-113`:
`kappa / wk * hij - kappa * diag(ek)` -/
noncomputable def deltaEta (kappa : ℝ) {n : ℕ} (hij : Matrix (Fin n) (Fin n) ℂ) (ek : Fin n → ℝ)
    (wk : ℝ) : Matrix (Fin n) (Fin n) ℂ := fun i j =>
  let v : ℂ := ((kappa / wk : ℝ) : ℂ) * hij i j
  if i = j then v - ((kappa * ek i : ℝ) : ℂ) else v

/-- `GradEta::g_eta`, `src/pseudo_hamiltonian/grad_eta.hpp:132-187`: gEta (1) and (2) on the
diagonal, gEta(3) off the diagonal -/
noncomputable def gEta (sf : SmearFns ℝ) (T : ℝ) {n : ℕ} (hij : Matrix (Fin n) (Fin n) ℂ)
    (mu wk : ℝ) (ek fn : Fin n → ℝ) (dmu dF mo : ℝ) : Matrix (Fin n) (Fin n) ℂ := fun i j =>
  let kT := kB * T
  if i = j then
    let delta := sf.delta ((ek i - mu) / kT) mo
    let g1 : ℂ := ((-1 / kT : ℝ) : ℂ) * (hij i i - ((wk * ek i : ℝ) : ℂ)) * (delta : ℂ)
    if |dmu| < 1 / 10 ^ 12 then g1 else g1 + ((wk * delta / dmu * (dF / kT) : ℝ) : ℂ)
  else if |ek j - ek i| < 1 / 10 ^ 10 then 0
  else (((fn j - fn i) / (ek j - ek i) : ℝ) : ℂ) * hij i j

end Nlcg
