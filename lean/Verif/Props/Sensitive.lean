import Verif.Proofs.Sensitive
import Verif.Proofs.CountWindow

/-!
# C104: small changes of the band energies change the occupations little
-/

namespace Nlcg
open Spec Real

variable {K : ℕ} {b : Fin K → ℕ}

/-- **C104.** Fermi-Dirac, Gauss or spline smearing: if no band energy changes by more than `δ`, no occupation changes by
more than `2 δ / kT` of a full band (and what is cut off from the tails) or the charge `2 tol`, whichever is larger. The
chemical potential itself may change by much more, for instance within a gap.

Missing: Methfessel-Paxton and cold smearing, for which this is false (`C104_not_nonmonotone`). -/
theorem C104_occupations_partial {t : SmearType} {p : OccParams ℝ} {key : Fin K → Key} {wk : Fin K → ℝ}
    {ek ek' : Bands b} {mu mu' : ℝ} {f f' : Bands b} {δ : ℝ} (ht : Monotonic t) (hk : Function.Injective key)
    (hT : 0 < p.T) (ho : 0 ≤ p.occ) (hw : ∀ k, 0 ≤ wk k) (hδ : ∀ k i, |ek k i - ek' k i| ≤ δ)
    (h : searchOcc false t p key wk ek = .ok (mu, f)) (h' : searchOcc false t p key wk ek' = .ok (mu', f'))
    (k : Fin K) (i : Fin (b k)) :
    wk k * |f k i - f' k i| ≤ max (2 * p.tol) (wk k * (p.occ * (2 * δ / (kB * p.T) + 2 * exp (-35)))) := by
  obtain ⟨hc, hf⟩ := searchOcc_charge hk h
  obtain ⟨hc', hf'⟩ := searchOcc_charge hk h'
  have hkT : 0 < (kB : ℝ) * p.T := mul_pos kB_pos hT
  have one : ∀ (g : (k : Fin K) → Fin (b k) → ℝ), (∀ k i, 0 ≤ g k i) → wk k * g k i ≤ ∑ k, wk k * ∑ i, g k i := by
    intro g hg
    refine le_trans (mul_le_mul_of_nonneg_left ?_ (hw k)) (Finset.single_le_sum
      (f := fun k => wk k * ∑ i, g k i) (fun k _ => mul_nonneg (hw k) (Finset.sum_nonneg fun i _ => hg k i))
      (Finset.mem_univ k))
    exact Finset.single_le_sum (f := fun i => g k i) (fun i _ => hg k i) (Finset.mem_univ i)
  have split : ∀ (g g' : Bands b), ∑ k, wk k * ∑ i, (g k i - g' k i) = ∑ k, wk k * ∑ i, g k i - ∑ k, wk k * ∑ i, g' k i := by
    intro g g'
    rw [← Finset.sum_sub_distrib]
    exact Finset.sum_congr rfl fun k _ => by rw [← mul_sub, ← Finset.sum_sub_distrib]
  rw [abs_lt] at hc hc'
  rcases lt_or_ge δ (mu - mu') with hs | hs
  · -- all arguments grow
    refine le_max_of_le_left ?_
    have hmono : ∀ k i, 0 ≤ f k i - f' k i := fun k i => by
      rw [hf, hf', sub_nonneg]
      have := (abs_le.1 (hδ k i)).2
      exact C07_occupation_monotone t ht _ _ _ ho (div_le_div_of_nonneg_right (by linarith) hkT.le)
    rw [abs_of_nonneg (hmono k i)]
    refine (one (fun k i => f k i - f' k i) hmono).trans ?_
    rw [split]
    linarith
  rcases lt_or_ge δ (mu' - mu) with hs' | hs'
  · refine le_max_of_le_left ?_
    have hmono : ∀ k i, 0 ≤ f' k i - f k i := fun k i => by
      rw [hf, hf', sub_nonneg]
      have := (abs_le.1 (hδ k i)).1
      exact C07_occupation_monotone t ht _ _ _ ho (div_le_div_of_nonneg_right (by linarith) hkT.le)
    rw [abs_sub_comm, abs_of_nonneg (hmono k i)]
    refine (one (fun k i => f' k i - f k i) hmono).trans ?_
    rw [split]
    linarith
  · refine le_max_of_le_right (mul_le_mul_of_nonneg_left ?_ (hw k))
    obtain ⟨g, hg⟩ := exists_ideal t ht
    rw [hf, hf']
    set x := (mu - ek k i) / (kB * p.T) with hx
    set x' := (mu' - ek' k i) / (kB * p.T) with hx'
    have h1 := abs_le.1 (hg.close x p.occ ho)
    have h2 := abs_le.1 (hg.close x' p.occ ho)
    have h3 : |x - x'| ≤ 2 * δ / (kB * p.T) := by
      rw [hx, hx', ← sub_div, abs_div, abs_of_pos hkT]
      refine div_le_div_of_nonneg_right ?_ hkT.le
      have := abs_le.1 (hδ k i)
      rw [abs_le]
      constructor <;> linarith [this.1, this.2]
    have h4 := abs_le.1 ((hg.lip x x').trans h3)
    have h5 := mul_le_mul_of_nonneg_left h4.1 ho
    have h6 := mul_le_mul_of_nonneg_left h4.2 ho
    rw [abs_le]
    constructor <;> linarith [h1.1, h1.2, h2.1, h2.2]

/-- bands at -1 and 1 Hartree, and shifted by 1/10 Hartree: both searches succeed -/
example : ∃ (mu mu' : ℝ) (f f' : Bands fun _ : Fin 1 => 2),
    searchOcc false .gauss wideP (fun _ : Fin 1 => toLex (0, 0)) (fun _ => 1) (fun _ => ![-1, 1]) = .ok (mu, f) ∧
    searchOcc false .gauss wideP (fun _ : Fin 1 => toLex (0, 0)) (fun _ => 1) (fun _ => ![-11 / 10, 11 / 10]) = .ok (mu', f') := by
  have key : ∀ a : ℝ, searchOcc false .gauss wideP (fun _ : Fin 1 => toLex (0, 0)) (fun _ => 1) (fun _ => ![-a, a]) =
      .ok (0, occs .gauss wideP.T wideP.occ (fun _ => ![-a, a]) 0) := by
    intro a
    rw [searchOcc_global]
    have : globalSearch false (smearFns .gauss) (smearFns .gauss) wideP
        (oneRank (fun _ : Fin 1 => toLex (0, 0)) (fun _ => 1) (fun _ => ![-a, a])) = .ok 0 := by
      simp only [globalSearch, Bool.false_eq_true, if_false, chemPotGathered]
      refine findChemPotRun_zero ?_ (by norm_num [wideP])
      rw [kSum_oneRank id _ (Function.injective_of_subsingleton _), wideP_kT]
      simp only [List.ofFn_succ, List.ofFn_zero, List.map_cons, List.map_nil, List.sum_cons, List.sum_nil,
        Fin.sum_univ_one, real_lit, real_sub, id]
      simp only [smearFns, gaussFn, wideP]
      simp
      ring_nf
      rw [erf_neg]
      ring
    rw [this]
    rfl
  have := key (11 / 10)
  rw [show (-(11 / 10) : ℝ) = -11 / 10 by norm_num] at this
  exact ⟨0, 0, _, _, key 1, this⟩

/-- **C104 is false for Methfessel-Paxton and cold smearing**, with either search and however large the gap `E`: there
are weights of two k-points such that for every `δ` some bands and the same bands, all lower by the same amount of at
most `δ`, get different occupations. A band which is empty before is full afterwards; its k-point carries at least
1/400 of the weight. -/
theorem C104_not_nonmonotone (t : SmearType) (ht : ¬ Monotonic t) (useNewton : Bool) (E : ℝ) (hE : 1 ≤ E) :
    ∃ w : Fin 2 → ℝ, 0 < w 0 ∧ 1 / 400 ≤ w 1 ∧ w 0 + w 1 = 1 ∧ ∀ δ : ℝ, 0 < δ →
      ∃ (s : ℝ) (ek ek' : Bands fun _ : Fin 2 => 2) (mu mu' : ℝ) (f f' : Bands fun _ : Fin 2 => 2),
        0 < s ∧ s ≤ δ ∧ (∀ k i, ek' k i = ek k i - s) ∧
        searchOcc useNewton t wideP wideKey w ek = .ok (mu, f) ∧
        searchOcc useNewton t wideP wideKey w ek' = .ok (mu', f') ∧ f 1 0 ≤ 0 ∧ 1 ≤ f' 1 0 := by
  obtain ⟨y, ho, hd⟩ : ∃ y, Overfills (smearFns t) y ∧ Drops (smearFns t) y := by
    cases t with
    | fermiDirac => exact absurd trivial ht
    | gauss => exact absurd trivial ht
    | gaussianSpline => exact absurd trivial ht
    | cold => exact ⟨9, cold_overfills, cold_drops⟩
    | methfesselPaxton => exact ⟨2, mp_overfills, mp_drops⟩
  obtain ⟨hw0, hw1, hw, -⟩ := wideWeights_ok ho hE
  refine ⟨wideWeights (smearFns t) y E, hw0, hw1, hw, fun δ hδ => ?_⟩
  obtain ⟨c, hc0, hc1, hv⟩ := exists_edge ho hd hE
  -- a step of size `2 r` across the edge
  obtain ⟨r, hr0, hr1, hr2, hr3⟩ : ∃ r, 0 < r ∧ 2 * r ≤ δ ∧ r ≤ c ∧ c + r ≤ 1 / 2000 :=
    ⟨min (δ / 2) (min c (1 / 2000 - c)), lt_min (by linarith) (lt_min hc0 (by linarith)),
      by linarith [min_le_left (δ / 2) (min c (1 / 2000 - c))],
      (min_le_right _ _).trans (min_le_left _ _),
      by linarith [(min_le_right (δ / 2) (min c (1 / 2000 - c))).trans (min_le_right _ _)]⟩
  refine ⟨2 * r, wideShift y E (c - r), wideShift y E (c + r), 0, 1 / 8, occs t wideP.T wideP.occ (wideShift y E (c - r)) 0,
    occs t wideP.T wideP.occ (wideShift y E (c + r)) (1 / 8), by linarith, hr1, fun k i => by simp only [wideShift]; ring,
    ?_, ?_, ?_, ?_⟩
  · rw [searchOcc_global, wide_before useNewton ho hd hE (by linarith) (by linarith) hc1 hv]
    rfl
  · rw [searchOcc_global, wide_behind useNewton ho hd hE hc0.le (by linarith) hr3 hv]
    rfl
  · show (smearFns t).fn ((0 - wideShift y E (c - r) 1 0) / (kB * wideP.T)) wideP.occ ≤ 0
    rw [wideP_kT]
    have e : (0 - wideShift y E (c - r) 1 0) / (1 / 1000) = -y + 1000 * (c - r) := by
      simp only [wideShift, wideBands, Matrix.cons_val_one, Matrix.cons_val_zero]
      ring
    rw [e]
    exact (hd.under ⟨le_rfl, by linarith⟩ ⟨by linarith, by linarith⟩ (by linarith)).trans ho.below.1
  · show 1 ≤ (smearFns t).fn ((1 / 8 - wideShift y E (c + r) 1 0) / (kB * wideP.T)) wideP.occ
    rw [wideP_kT]
    have e : (1 / 8 - wideShift y E (c + r) 1 0) / (1 / 1000) = 1000 * (1 / 8 + c + r) - y := by
      simp only [wideShift, wideBands, Matrix.cons_val_one, Matrix.cons_val_zero]
      ring
    rw [e]
    have := (abs_le.1 (hd.high (1000 * (1 / 8 + c + r) - y) (by linarith [ho.range.2]))).1
    have e2 : (1 : ℝ) / 10 ^ 20 ≤ 1 := by norm_num
    show 1 ≤ (smearFns t).fn _ 2
    linarith

end Nlcg
