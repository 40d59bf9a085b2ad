import Verif.Props.Solver
import Verif.Spec.CallAgain

/-! Where a second call starts. -/

namespace Nlcg
open Matrix Arith Spec ComplexOrder

theorem inside_connected (t : SmearType) : (inside t).OrdConnected := by
  cases t <;> simp only [inside] <;> first | exact Set.ordConnected_Ioo | exact Set.ordConnected_univ

/-- Among all occupations of a level, those of its own energy minimise energy minus entropy minus
`mu` times occupation. -/
theorem level_min (t : SmearType) (ht : Monotonic t) {kT mo h mu x : ℝ} (hkT : 0 < kT) (hmo : 0 ≤ mo)
    (hx : x ∈ inside t) (hh : (mu - h) / kT ∈ inside t)
    (hgs : t = .gaussianSpline → mo = 1) :
    (h - mu) * (smearFns t).fn ((mu - h) / kT) mo - kT * (smearFns t).entropy ((mu - h) / kT) mo
      ≤ (h - mu) * (smearFns t).fn x mo - kT * (smearFns t).entropy x mo := by
  have hin : ∀ y, min x ((mu - h) / kT) ≤ y → y ≤ max x ((mu - h) / kT) → y ∈ inside t := fun y h1 h2 =>
    (inside_connected t).uIcc_subset hx hh ⟨h1, h2⟩
  set x0 := (mu - h) / kT with hx0
  have e0 : h - mu = -(kT * x0) := by rw [hx0]; field_simp; ring
  set G : ℝ → ℝ := fun y => (h - mu) * (smearFns t).fn y mo - kT * (smearFns t).entropy y mo with hG
  have hd : ∀ y ∈ inside t, HasDerivAt G (kT * (y - x0) * (smearFns t).delta y mo) y := by
    intro y hy
    have h1 := (C08_delta_is_derivative t mo y hy).const_mul (h - mu)
    have h2 := (C10_entropy_derivative_partial t mo y (inside_insideDelta t hy) hgs).const_mul kT
    have h3 := h1.sub h2
    refine h3.congr_deriv ?_
    rw [e0]; ring
  show G x0 ≤ G x
  have hdn : ∀ y, 0 ≤ (smearFns t).delta y mo := fun y =>
    delta_nonneg t ht y mo hmo
  rcases le_total x0 x with hle | hle
  · have hm : MonotoneOn G (Set.Icc x0 x) := by
      refine monotoneOn_of_deriv_nonneg (convex_Icc _ _) ?_ ?_ ?_
      · intro y hy
        exact (hd y (hin y (by rw [min_eq_right hle]; exact hy.1) (by rw [max_eq_left hle]; exact hy.2))).continuousAt.continuousWithinAt
      · intro y hy
        rw [interior_Icc] at hy
        exact (hd y (hin y (by rw [min_eq_right hle]; exact hy.1.le) (by rw [max_eq_left hle]; exact hy.2.le))).differentiableAt.differentiableWithinAt
      · intro y hy
        rw [interior_Icc] at hy
        rw [(hd y (hin y (by rw [min_eq_right hle]; exact hy.1.le) (by rw [max_eq_left hle]; exact hy.2.le))).deriv]
        exact mul_nonneg (mul_nonneg hkT.le (sub_nonneg.2 hy.1.le)) (hdn y)
    exact hm ⟨le_rfl, hle⟩ ⟨hle, le_rfl⟩ hle
  · have hm : AntitoneOn G (Set.Icc x x0) := by
      refine antitoneOn_of_deriv_nonpos (convex_Icc _ _) ?_ ?_ ?_
      · intro y hy
        exact (hd y (hin y (by rw [min_eq_left hle]; exact hy.1) (by rw [max_eq_right hle]; exact hy.2))).continuousAt.continuousWithinAt
      · intro y hy
        rw [interior_Icc] at hy
        exact (hd y (hin y (by rw [min_eq_left hle]; exact hy.1.le) (by rw [max_eq_right hle]; exact hy.2.le))).differentiableAt.differentiableWithinAt
      · intro y hy
        rw [interior_Icc] at hy
        rw [(hd y (hin y (by rw [min_eq_left hle]; exact hy.1.le) (by rw [max_eq_right hle]; exact hy.2.le))).deriv]
        exact mul_nonpos_of_nonpos_of_nonneg (mul_nonpos_of_nonneg_of_nonpos hkT.le (sub_nonpos.2 hy.2.le)) (hdn y)
    exact hm ⟨le_rfl, hle⟩ ⟨hle, le_rfl⟩ hle

variable {K : ℕ} {n b : Fin K → ℕ} {η : Type} {host : Host η n b} {c : Cfg n b}

/-- a start of the solver reads its band energies from the host -/
theorem setup_ek {r : Point n b} {s s' : SState η n b} (h : solverSetup host c s = (.ok r, s')) :
    ∃ h1, host.compute s.h = (some (), h1) ∧ r.ek = host.ek h1 ∧
      c.occ (host.ek h1) = .ok (r.mu, r.fn) := by
  rw [solverSetup, hostCall_bind] at h
  rcases hc : host.compute s.h with ⟨_ | u, h1⟩ <;> simp only [hc] at h
  · simp at h
  rw [SM.get_bind, SM.lift_bind] at h
  rcases hocc : c.occ (host.ek h1) with ⟨mu, f⟩ | e | _ | _ <;>
    simp only [hocc] at h
  · rw [SM.get_bind, SM.bind_apply] at h
    simp only at h
    generalize evaluate host c (host.C h1) f (host.ek h1) mu _ = q at h
    rcases q with ⟨_ | _ | _ | _, s2⟩ <;> simp only at h
    · rw [SM.get_bind] at h
      cases h
      exact ⟨h1, rfl, rfl, hocc⟩
    all_goals cases h
  all_goals cases h

/-- the free energy of electrons that do not interact, as a sum over levels -/
theorem freeEnergy_levels (t : SmearType) (T mo mu m : ℝ) (wk : Fin K → ℝ)
    (H : (k : Fin K) → Mat (n k) (n k)) (X : Orbitals n b) (e : Bands b) :
    bandEnergy H wk X (occs t T mo e mu) + entropyTerm t T mo mu (List.ofFn fun k => (wk k, List.ofFn (e k)))
        - m * electrons wk (occs t T mo e mu)
      = ∑ k, wk k * ∑ i, ((levels H X k i - m) * (smearFns t).fn ((mu - e k i) / (kB * T)) mo
          - kB * T * (smearFns t).entropy ((mu - e k i) / (kB * T)) mo) := by
  rw [entropyTerm_ofFn, bandEnergy, electrons, neg_mul, Finset.mul_sum, Finset.mul_sum,
    ← sub_eq_add_neg, ← Finset.sum_sub_distrib, ← Finset.sum_sub_distrib]
  refine Finset.sum_congr rfl fun k _ => ?_
  simp only [occs, Finset.sum_sub_distrib, sub_mul, ← Finset.mul_sum]
  simp only [mul_comm (levels H X k _)]
  ring

end Nlcg
