import Verif.Proofs.Density
import Verif.Props.Variational
import Verif.Spec.MeanField
import Mathlib.Analysis.Convex.Deriv
import Mathlib.Tactic.NoncommRing

/-! # Electrons that interact through a mean field -/

namespace Nlcg
open Matrix Spec Real ComplexOrder

section
variable {K : ℕ} {n b : Fin K → ℕ}

theorem idealFn_le_one {t : SmearType} (ht : Monotonic t) (x : ℝ) : idealFn t x ≤ 1 := by
  have hmono : Monotone (idealFn t) := fun y z h => by
    have h1 := dual_ideal ht y z
    have h2 := dual_ideal ht z y
    rcases eq_or_lt_of_le h with rfl | hl
    · exact le_rfl
    · by_contra hc
      nlinarith [not_le.1 hc]
  exact ge_of_tendsto (idealFn_top ht) (Filter.eventually_atTop.2 ⟨x, fun z hz => hmono hz⟩)

theorem exactOcc_bounds {t : SmearType} (ht : Monotonic t) {T mo : ℝ} (hm : 0 ≤ mo) (e : Bands b) (mu : ℝ) (k : Fin K)
    (i : Fin (b k)) : 0 ≤ exactOcc t T mo e mu k i ∧ exactOcc t T mo e mu k i ≤ mo :=
  ⟨mul_nonneg hm (idealFn_nonneg ht _), mul_le_of_le_one_right hm (idealFn_le_one ht _)⟩

/-- occupations `f` with entropies `s` that obey the level inequality up to `ε` -/
theorem variational_core {t : SmearType} (ht : Monotonic t) {T mo ε : ℝ} (hT : 0 < T) (hm : 0 ≤ mo)
    {wk : Fin K → ℝ} (hw : ∀ k, 0 ≤ wk k)
    {H S : (k : Fin K) → Mat (n k) (n k)} (hH : ∀ k, (H k).IsHermitian) (hS : ∀ k, (S k).PosSemidef)
    {V : Orbitals n b} {e : Bands b} (hV : ∀ k, Lowest (H k) (S k) (V k) (e k)) (mu : ℝ)
    {X : Orbitals n b} (hX : ∀ k, SOrtho (S k) (X k)) {f s : Bands b} (hf0 : ∀ k i, 0 ≤ f k i)
    (hlev : ∀ k i y, s k i + y * f k i ≤ mo * (idealEntropy t y + y * idealFn t y + ε)) :
    exactFreeEnergy t T mo wk e mu + mu * (electrons wk f - exactElectrons t T mo wk e mu)
        - kB * T * mo * ε * ∑ k, wk k * b k
      ≤ bandEnergy H wk X f + -(kB * T) * ∑ k, wk k * ∑ i, s k i := by
  have hkT : (0 : ℝ) < kB * T := mul_pos kB_pos hT
  have hmon : Antitone fun x => kB * T * (mo * (idealEntropy t ((mu - x) / (kB * T))
      + (mu - x) / (kB * T) * idealFn t ((mu - x) / (kB * T)) + ε)) := fun x x' hxx => by
    refine mul_le_mul_of_nonneg_left (mul_le_mul_of_nonneg_left ?_ hm) hkT.le
    have := ideal_dual_mono ht (y := (mu - x') / (kB * T)) (z := (mu - x) / (kB * T))
      (div_le_div_of_nonneg_right (by linarith) hkT.le)
    linarith
  have key : ∀ k, ∑ i, (kB * T * s k i + mu * f k i - levels H X k i * f k i)
      ≤ ∑ j, kB * T * (mo * (idealEntropy t ((mu - e k j) / (kB * T))
        + (mu - e k j) / (kB * T) * idealFn t ((mu - e k j) / (kB * T)) + ε)) := fun k => by
    simp only [levels_eq]
    refine ky_fan (hH k) (hS k) (hV k) (hX k) (s := fun i => kB * T * s k i + mu * f k i)
      (f := fun i => f k i) (hf0 k) hmon fun i x => ?_
    have := mul_le_mul_of_nonneg_left (hlev k i ((mu - x) / (kB * T))) hkT.le
    refine le_trans (le_of_eq ?_) this
    have hy : kB * T * ((mu - x) / (kB * T)) = mu - x := mul_div_cancel₀ _ hkT.ne'
    linear_combination -f k i * hy
  have h2 : ∀ k, wk k * ∑ i, mo * (e k i * idealFn t ((mu - e k i) / (kB * T))
          - kB * T * idealEntropy t ((mu - e k i) / (kB * T)))
        + mu * (wk k * ∑ i, f k i - wk k * ∑ i, mo * idealFn t ((mu - e k i) / (kB * T)))
        - kB * T * mo * ε * (wk k * b k)
      ≤ wk k * ∑ i, f k i * levels H X k i + -(kB * T) * (wk k * ∑ i, s k i) := fun k => by
    have h3 : ∑ j, kB * T * (mo * (idealEntropy t ((mu - e k j) / (kB * T))
        + (mu - e k j) / (kB * T) * idealFn t ((mu - e k j) / (kB * T)) + ε))
        = mu * (∑ i, mo * idealFn t ((mu - e k i) / (kB * T))) + kB * T * mo * ε * b k
          - ∑ i, mo * (e k i * idealFn t ((mu - e k i) / (kB * T)) - kB * T * idealEntropy t ((mu - e k i) / (kB * T))) := by
      have hb : kB * T * mo * ε * b k = ∑ _i : Fin (b k), kB * T * mo * ε := by
        rw [Finset.sum_const, Finset.card_univ, Fintype.card_fin, nsmul_eq_mul, mul_comm]
      rw [hb, Finset.mul_sum, ← Finset.sum_add_distrib, ← Finset.sum_sub_distrib]
      refine Finset.sum_congr rfl fun j _ => ?_
      have hy : kB * T * ((mu - e k j) / (kB * T)) = mu - e k j := mul_div_cancel₀ _ hkT.ne'
      generalize idealFn t ((mu - e k j) / (kB * T)) = f
      generalize idealEntropy t ((mu - e k j) / (kB * T)) = s
      linear_combination mo * f * hy
    have h4 := key k
    rw [h3, Finset.sum_sub_distrib, Finset.sum_add_distrib, ← Finset.mul_sum, ← Finset.mul_sum] at h4
    have h5 := mul_le_mul_of_nonneg_left h4 (hw k)
    have h6 : ∑ i, f k i * levels H X k i = ∑ i, levels H X k i * f k i :=
      Finset.sum_congr rfl fun i _ => mul_comm _ _
    rw [h6]
    linarith
  simp only [exactFreeEnergy, electrons, exactElectrons, bandEnergy]
  exact sum_bound _ _ _ _ _ _ _ _ _ h2

/-- the exact solution in terms of its parts -/
theorem exactFree_split {t : SmearType} {T mo : ℝ} {wk : Fin K → ℝ} {H S : (k : Fin K) → Mat (n k) (n k)}
    {V : Orbitals n b} {e : Bands b} (hV : ∀ k, Lowest (H k) (S k) (V k) (e k)) (mu : ℝ) :
    exactFreeEnergy t T mo wk e mu = bandEnergy H wk V (exactOcc t T mo e mu)
      - kB * T * exactEntropy t T mo wk e mu := by
  have hl : ∀ k i, levels H V k i = e k i := fun k i => by
    have h1 := (hV k).ortho
    rw [SOrtho] at h1
    rw [levels, (hV k).eigen, ← Matrix.mul_assoc, h1, Matrix.one_mul, diagonal_apply_eq, Complex.ofReal_re]
  simp only [bandEnergy, exactFreeEnergy, exactEntropy, hl, Finset.mul_sum, ← Finset.sum_sub_distrib, exactOcc]
  refine Finset.sum_congr rfl fun k _ => Finset.sum_congr rfl fun i _ => ?_
  ring

/-- the sum of the occupied energies is a function of the density -/
theorem bandEnergy_density (H : (k : Fin K) → Mat (n k) (n k)) (wk : Fin K → ℝ) (X : Orbitals n b) (f : Bands b) :
    bandEnergy H wk X f = meanOf wk H (densities X f) := by
  simp only [bandEnergy, meanOf, densities]
  refine Finset.sum_congr rfl fun k _ => ?_
  congr 1
  rw [densityOf, ← Matrix.mul_assoc, ← Matrix.mul_assoc, trace_mul_comm, ← Matrix.mul_assoc, trace, Complex.re_sum]
  refine Finset.sum_congr rfl fun i _ => ?_
  rw [diag_apply, mul_diagonal, Complex.re_mul_ofReal, levels, mul_comm]

/-- the distance as a sum of squares -/
theorem distSq_squares {N : ℕ} {S D D' : Mat N N} (hS : S.PosDef) (hD : D.IsHermitian) (hD' : D'.IsHermitian) :
    ∃ Q M : Mat N N, Q * M * Qᴴ = D - D' ∧ distSq S D D' = ∑ i, ∑ j, Complex.normSq (M j i) := by
  obtain ⟨Q, hQ⟩ := exists_basis hS
  have hQ1 : (Qᴴ * S) * Q = 1 := by rw [Matrix.mul_assoc]; exact hQ
  have hQ2 : Q * (Qᴴ * S) = 1 := mul_eq_one_comm.1 hQ1
  set R : Mat N N := Qᴴ * S with hR
  have hSR : S = Rᴴ * R := by
    rw [hR, conjTranspose_mul, conjTranspose_conjTranspose, hS.isHermitian.eq, Matrix.mul_assoc, ← hR, hQ2, Matrix.mul_one]
  clear_value R
  set M : Mat N N := R * (D - D') * Rᴴ with hM
  have hMh : Mᴴ = M := by
    rw [hM, conjTranspose_mul, conjTranspose_mul, conjTranspose_conjTranspose, (hD.sub hD').eq, Matrix.mul_assoc]
  have hd : distSq S D D' = (trace (Mᴴ * M)).re := by
    rw [hMh, distSq, hM, hSR]
    congr 1
    rw [show (D - D') * (Rᴴ * R) * ((D - D') * (Rᴴ * R)) = ((D - D') * Rᴴ * R * (D - D') * Rᴴ) * R by
      simp only [Matrix.mul_assoc], trace_mul_comm]
    simp only [Matrix.mul_assoc]
  refine ⟨Q, M, ?_, ?_⟩
  · have h3 : Rᴴ * Qᴴ = 1 := by rw [← conjTranspose_mul, hQ2, conjTranspose_one]
    rw [hM, ← Matrix.mul_assoc, ← Matrix.mul_assoc, hQ2, Matrix.one_mul, Matrix.mul_assoc, h3, Matrix.mul_one]
  · rw [hd, trace, Complex.re_sum]
    refine Finset.sum_congr rfl fun i _ => ?_
    rw [diag_apply, mul_apply, Complex.re_sum]
    refine Finset.sum_congr rfl fun j _ => ?_
    rw [conjTranspose_apply]
    simp [Complex.normSq_apply]

theorem distSq_nonneg {N : ℕ} {S D D' : Mat N N} (hS : S.PosDef) (hD : D.IsHermitian) (hD' : D'.IsHermitian) :
    0 ≤ distSq S D D' := by
  obtain ⟨Q, M, -, h⟩ := distSq_squares hS hD hD'
  rw [h]
  exact Finset.sum_nonneg fun i _ => Finset.sum_nonneg fun j _ => Complex.normSq_nonneg _

/-- distance zero -/
theorem eq_of_distSq {N : ℕ} {S D D' : Mat N N} (hS : S.PosDef) (hD : D.IsHermitian) (hD' : D'.IsHermitian)
    (h : distSq S D D' ≤ 0) : D = D' := by
  obtain ⟨Q, M, hQ, hd⟩ := distSq_squares hS hD hD'
  have hz : M = 0 := by
    rw [hd] at h
    have hnn : ∀ i, 0 ≤ ∑ j, Complex.normSq (M j i) := fun i => Finset.sum_nonneg fun j _ => Complex.normSq_nonneg _
    have h1 := (Finset.sum_eq_zero_iff_of_nonneg fun i _ => hnn i).1 (le_antisymm h (Finset.sum_nonneg fun i _ => hnn i))
    ext j i
    have h2 := (Finset.sum_eq_zero_iff_of_nonneg fun j _ => Complex.normSq_nonneg (M j i)).1 (h1 i (Finset.mem_univ i))
    exact Complex.normSq_eq_zero.1 (h2 j (Finset.mem_univ j))
  rw [hz, Matrix.mul_zero, Matrix.zero_mul] at hQ
  exact (sub_eq_zero.1 hQ.symm)

/-- two densities near a third one -/
theorem distSq_two {N : ℕ} {S D D' D0 : Mat N N} (hS : S.PosDef) (hD : D.IsHermitian) (hD' : D'.IsHermitian)
    (h0 : D0.IsHermitian) : distSq S D D' ≤ 2 * (distSq S D D0 + distSq S D' D0) := by
  have h := distSq_nonneg hS (hD.add hD') (h0.add h0)
  have e : (D - D') * S * ((D - D') * S) + (D + D' - (D0 + D0)) * S * ((D + D' - (D0 + D0)) * S)
      = (D - D0) * S * ((D - D0) * S) + (D' - D0) * S * ((D' - D0) * S)
        + ((D - D0) * S * ((D - D0) * S) + (D' - D0) * S * ((D' - D0) * S)) := by
    noncomm_ring
  have e' := congrArg (fun M => (trace M).re) e
  simp only [trace_add, Complex.add_re] at e'
  simp only [distSq] at *
  linarith

end

end Nlcg
