import Verif.Props.Solver
import Verif.Proofs.EntropyPeak

/-!
# C108: the temperature bounds the smearing correction

Exact real arithmetic.
-/

namespace Nlcg
open Real Spec

/-- **C108.** The entropy of a state is at most that of a half-filled state, in modulus. -/
theorem C108_state (t : SmearType) (x mo : ℝ) (hmo : 0 ≤ mo) (hgs : t = .gaussianSpline → 1 ≤ mo) :
    |(smearFns t).entropy x mo| ≤ mo * peak t := by
  cases t with
  | fermiDirac => exact (abs_of_nonneg (fdEntropy_nonneg x hmo)).trans_le (fdEntropy_le x hmo)
  | gaussianSpline =>
    refine (abs_of_nonneg (gsEntropy_nonneg x mo)).trans_le ((gsEntropy_le x mo).trans ?_)
    have : 0 ≤ peak .gaussianSpline := by
      have := erfc_pos (1 / √2)
      rw [peak]; positivity
    exact le_mul_of_one_le_left this (hgs rfl)
  | gauss => exact (abs_of_nonneg (gaussEntropy_nonneg x hmo)).trans_le (gaussEntropy_le x hmo)
  | methfesselPaxton => exact mpEntropy_le x hmo
  | cold => exact coldEntropy_le x hmo

/-- **C108.** No smaller bound holds: the state at the Fermi level attains it. -/
theorem C108_attained (t : SmearType) (mo : ℝ) (hgs : t = .gaussianSpline → mo = 1) :
    (smearFns t).entropy 0 mo = mo * peak t := by
  cases t with
  | fermiDirac => simp only [smearFns, fdEntropy, peak]; norm_num
  | gaussianSpline =>
    simp only [smearFns, gsEntropy, peak, hgs rfl, ← exp_half_sqrtpi]; norm_num; ring
  | gauss => simp only [smearFns, gaussEntropy, peak]; norm_num; ring
  | methfesselPaxton => simp only [smearFns, mpEntropy, peak]; norm_num; ring
  | cold =>
    simp only [smearFns, coldEntropy, peak, ← exp_half_sqrtpi]
    rw [if_neg (by norm_num), if_neg (by norm_num),
      show -(0 - 1 / √2) * (0 - 1 / √2) = -(1 / √(2 : ℝ)) ^ 2 by ring, inv_sqrt2_sq, exp_neg]
    norm_num
    ring

variable {K : ℕ} {n b : Fin K → ℕ} {η : Type}
variable {host : Host η n b} {c : Cfg n b} {prm : NlcgParams ℝ} {fuel rank : ℕ}
variable {w w' : NState ℝ (SState η n b)} {o : Res (Info ℝ)}

/-- the entropy term of one set of band energies -/
theorem entropy_sum_le (hw : ∀ k, 0 ≤ c.wk k) (hT : 0 ≤ c.T) (hmo : 0 ≤ c.mo)
    (hgs : c.t = .gaussianSpline → 1 ≤ c.mo) (y : ∀ k, Fin (b k) → ℝ) :
    |-(kB * c.T) * ∑ k, c.wk k * ∑ j, (smearFns c.t).entropy (y k j) c.mo|
      ≤ kB * c.T * (c.mo * peak c.t * ∑ k, c.wk k * b k) := by
  have hk : (0 : ℝ) ≤ kB * c.T := mul_nonneg kB_pos.le hT
  rw [neg_mul, abs_neg, abs_mul, abs_of_nonneg hk]
  refine mul_le_mul_of_nonneg_left ?_ hk
  refine (Finset.abs_sum_le_sum_abs _ _).trans ?_
  rw [Finset.mul_sum]
  refine Finset.sum_le_sum fun k _ => ?_
  rw [abs_mul, abs_of_nonneg (hw k), mul_left_comm]
  refine mul_le_mul_of_nonneg_left ?_ (hw k)
  refine (Finset.abs_sum_le_sum_abs _ _).trans ?_
  calc _ ≤ ∑ _j : Fin (b k), c.mo * peak c.t :=
        Finset.sum_le_sum fun j _ => C108_state c.t _ c.mo hmo hgs
    _ = c.mo * peak c.t * b k := by simp [mul_comm]

/-- **C108.** Every free energy that a run reports differs from the total energy the host returned
for the same orbitals and occupations by at most `kT` times the largest entropy of a state times the
weighted number of states. -/
theorem C108_reported (hs : Setting host c) (hT : 0 ≤ c.T) (hmo : 0 ≤ c.mo)
    (hgs : c.t = .gaussianSpline → 1 ≤ c.mo) (h0 : SStart host c w.s)
    (h : solve host c prm fuel rank w = some (o, w')) (i : ℕ) (F S sl : ℝ)
    (hm : Ev.report i F S sl ∈ w'.trace) :
    |S| ≤ kB * c.T * (c.mo * peak c.t * ∑ k, c.wk k * b k) ∧
    ∃ h E h', (∀ k, SOrtho (c.S k) (host.C h k)) ∧ host.energy h = (some E, h') ∧
      |F - E| ≤ kB * c.T * (c.mo * peak c.t * ∑ k, c.wk k * b k) := by
  obtain ⟨X, ek, mu, hX, -, hS, g, E, g', hC, -, he, hF⟩ := C69_reported_energy hs h0 h i F S sl hm
  have hle : |S| ≤ kB * c.T * (c.mo * peak c.t * ∑ k, c.wk k * b k) := by
    rw [hS]
    exact entropy_sum_le (fun k => (hs.weights k).le) hT hmo hgs _
  refine ⟨hle, g, E, g', fun k => by rw [hC]; exact hX k, he, ?_⟩
  rwa [hF, add_sub_cancel_left]

/-- **C108.** The same holds for the free energy that a run returns. -/
theorem C108_returned (hs : Setting host c) (hc : ∀ ek, (c.occ ek).Clean) (hT : 0 ≤ c.T)
    (hmo : 0 ≤ c.mo) (hgs : c.t = .gaussianSpline → 1 ≤ c.mo) (h0 : SStart host c w.s)
    (hm : 1 ≤ prm.maxiter) (info : Info ℝ)
    (h : solve host c prm fuel rank w = some (.ok info, w')) :
    ∃ vals, info.vals = some vals ∧
      |vals.S| ≤ kB * c.T * (c.mo * peak c.t * ∑ k, c.wk k * b k) ∧
      ∃ h E h', (∀ k, SOrtho (c.S k) (host.C h k)) ∧ host.energy h = (some E, h') ∧
        |vals.F - E| ≤ kB * c.T * (c.mo * peak c.t * ∑ k, c.wk k * b k) := by
  obtain ⟨vals, slope, e1, -, -, -, e5, -⟩ :=
    nlcg_record _ (solver_clean host c hc) (solver_quiet host c) prm fuel rank w w' info hm h
  exact ⟨vals, e1, C108_reported hs hT hmo hgs h0 h _ _ _ _ (mem_reports.1 e5)⟩

/-- a run at 300 K of which the bound speaks -/
example (prm : NlcgParams ℝ) (htol : 0 < prm.tol) (htau : prm.tau < 1) (hr : prm.restart ≠ 0)
    (hm : 1 ≤ prm.maxiter) : ∃ fuel info w' vals,
    solve demoHost (demoCfg demoOcc) prm fuel 0 (demoStart 5) = some (.ok info, w') ∧
    info.vals = some vals ∧ |vals.S| ≤ kB * 300 * (2 * peak .gauss * ∑ k, 1 * (demoB k : ℝ)) := by
  obtain ⟨fuel, info, w', h⟩ := demo_returns prm htol htau hr
  obtain ⟨vals, hv, hS, -⟩ := C108_returned demo_settings.1
    (fun _ => by simp [demoCfg, demoOcc, Res.Clean]) (by norm_num [demoCfg]) (by norm_num [demoCfg])
    (fun h => by simp [demoCfg] at h) (demo_start _ _ _) hm info h
  exact ⟨fuel, info, w', vals, h, hv, hS⟩

/-- the Gaussian spline with two electrons per state -/
example (x : ℝ) : |(smearFns .gaussianSpline).entropy x 2| ≤ 2 * peak .gaussianSpline :=
  C108_state _ x 2 (by norm_num) fun _ => by norm_num

end Nlcg
