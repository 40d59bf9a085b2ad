import Verif.Proofs.InsulatorRef

/-!
# C94: occupations of insulators

`Insulator p wk ek full Ev Ec` (`Spec/Insulator.lean`): the bands `full` lie below `Ev` and hold all electrons, the
others lie above `Ec`.
-/

namespace Nlcg
open Spec Real

variable {K : ℕ} {b : Fin K → ℕ} {t : SmearType} {p : OccParams ℝ} {key : Fin K → Key} {wk : Fin K → ℝ}
  {ek : Bands b} {full : (k : Fin K) → Fin (b k) → Bool} {Ev Ec : ℝ} {mu : ℝ} {f : Bands b}

/-- **C94.** With Fermi-Dirac, Gauss or spline smearing, the bands below the gap of an insulator are full and those
above it are empty, up to the tails of the smearing function at half the gap and the tolerance of the search.

Missing: Methfessel-Paxton and cold smearing, for which this is false (`C94_not_nonmonotone`). -/
theorem C94_occupations_partial (ht : Monotonic t) (hk : Function.Injective key) (hT : 0 < p.T) (ho : 0 ≤ p.occ)
    (hw : ∀ k, 0 ≤ wk k) (hi : Insulator p wk ek full Ev Ec)
    (h : searchOcc false t p key wk ek = .ok (mu, f)) (k : Fin K) (i : Fin (b k)) :
    (full k i = true → f k i ≤ p.occ ∧ wk k * (p.occ - f k i) ≤ misplaced p wk b Ev Ec) ∧
    (full k i = false → 0 ≤ f k i ∧ wk k * f k i ≤ misplaced p wk b Ev Ec) := by
  obtain ⟨hc, hf⟩ := searchOcc_charge hk h
  have hkT : 0 < (kB : ℝ) * p.T := mul_pos kB_pos hT
  have hfb : ∀ k i, 0 ≤ f k i ∧ f k i ≤ p.occ := fun k i => by
    rw [hf]; exact C06_occupation_bounds t ht _ _ ho
  set ε := exp (-(Ec - Ev) / (2 * (kB * p.T))) with hε
  -- charge missing below the gap and charge above it
  set holes : ℝ := ∑ k, wk k * ∑ i, if full k i then p.occ - f k i else 0 with hh
  set excited : ℝ := ∑ k, wk k * ∑ i, if full k i then 0 else f k i with he
  have hbal : p.ne - ∑ k, wk k * ∑ i, f k i = holes - excited := by
    rw [hi.electrons, hh, he, ← Finset.sum_sub_distrib, ← Finset.sum_sub_distrib]
    refine Finset.sum_congr rfl fun k _ => ?_
    rw [← mul_sub, ← mul_sub, ← Finset.sum_sub_distrib, ← Finset.sum_sub_distrib]
    congr 1
    refine Finset.sum_congr rfl fun i _ => ?_
    split_ifs <;> ring
  rw [hbal, abs_lt] at hc
  have hsum : ∀ g : (k : Fin K) → Fin (b k) → ℝ, (∀ k i, g k i ≤ p.occ * ε) →
      ∑ k, wk k * ∑ i, g k i ≤ (∑ k, wk k * b k) * p.occ * ε := by
    intro g hg
    rw [mul_assoc, Finset.sum_mul]
    refine Finset.sum_le_sum fun k _ => ?_
    have : ∑ i, g k i ≤ ∑ _ : Fin (b k), p.occ * ε := Finset.sum_le_sum fun i _ => hg k i
    rw [Finset.sum_const, Finset.card_univ, Fintype.card_fin, nsmul_eq_mul] at this
    calc wk k * ∑ i, g k i ≤ wk k * ((b k : ℝ) * (p.occ * ε)) := mul_le_mul_of_nonneg_left this (hw k)
      _ = wk k * b k * (p.occ * ε) := by ring
  have hpos : 0 ≤ p.occ * ε := mul_nonneg ho (exp_pos _).le
  have hhalf : ∀ y, (Ec - Ev) / 2 ≤ y → exp (-(y / (kB * p.T))) ≤ ε := by
    intro y hy
    rw [hε]
    refine exp_le_exp.2 ?_
    rw [neg_div, neg_le_neg_iff, div_mul_eq_div_div]
    exact div_le_div_of_nonneg_right hy hkT.le
  have hgap := hi.gap
  have hboth : holes ≤ (∑ k, wk k * b k) * p.occ * ε + p.tol ∧ excited ≤ (∑ k, wk k * b k) * p.occ * ε + p.tol := by
    have htol : 0 < p.tol := by linarith [hc.1, hc.2]
    rcases le_total mu ((Ev + Ec) / 2) with hm | hm
    · have h1 : excited ≤ (∑ k, wk k * b k) * p.occ * ε := by
        refine hsum _ fun k i => ?_
        split_ifs with hfull
        · exact hpos
        · have hab := hi.above k i (by simpa using hfull)
          have hx : 0 ≤ (ek k i - mu) / (kB * p.T) := div_nonneg (by linarith) hkT.le
          have := (tails ht ho hx).1
          rw [hf, show (mu - ek k i) / (kB * p.T) = -((ek k i - mu) / (kB * p.T)) by ring]
          exact this.trans (mul_le_mul_of_nonneg_left (hhalf _ (by linarith)) ho)
      exact ⟨by linarith, by linarith⟩
    · have h1 : holes ≤ (∑ k, wk k * b k) * p.occ * ε := by
        refine hsum _ fun k i => ?_
        split_ifs with hfull
        · have hab := hi.below k i hfull
          have hx : 0 ≤ (mu - ek k i) / (kB * p.T) := div_nonneg (by linarith) hkT.le
          have := (tails ht ho hx).2
          rw [hf]
          exact this.trans (mul_le_mul_of_nonneg_left (hhalf _ (by linarith)) ho)
        · exact hpos
      exact ⟨by linarith, by linarith⟩
  have hone : ∀ g : (k : Fin K) → Fin (b k) → ℝ, (∀ k i, 0 ≤ g k i) → wk k * g k i ≤ ∑ k, wk k * ∑ i, g k i := by
    intro g hg
    refine le_trans (mul_le_mul_of_nonneg_left ?_ (hw k)) (Finset.single_le_sum
      (f := fun k => wk k * ∑ i, g k i) (fun k _ => mul_nonneg (hw k) (Finset.sum_nonneg fun i _ => hg k i))
      (Finset.mem_univ k))
    exact Finset.single_le_sum (f := fun i => g k i) (fun i _ => hg k i) (Finset.mem_univ i)
  refine ⟨fun hfull => ⟨(hfb k i).2, ?_⟩, fun hfull => ⟨(hfb k i).1, ?_⟩⟩
  · have h1 := hone (fun k i => if full k i then p.occ - f k i else 0) (fun k i => by
      have := hfb k i
      split_ifs
      · linarith
      · exact le_rfl)
    simp only [hfull, if_true] at h1
    exact h1.trans hboth.1
  · have h1 := hone (fun k i => if full k i then 0 else f k i) (fun k i => by
      have := hfb k i
      split_ifs
      · exact le_rfl
      · linarith)
    simp only [hfull, Bool.false_eq_true, if_false] at h1
    exact h1.trans hboth.2

/-- **C94.** If that charge is less than half of what a band can hold, the chemical potential lies in the gap: above
every full band and below every empty one. -/
theorem C94_in_gap_partial (ht : Monotonic t) (hk : Function.Injective key) (hT : 0 < p.T) (ho : 0 ≤ p.occ)
    (hw : ∀ k, 0 ≤ wk k) (hi : Insulator p wk ek full Ev Ec) (hsmall : ∀ k, misplaced p wk b Ev Ec < wk k * (p.occ / 2))
    (h : searchOcc false t p key wk ek = .ok (mu, f)) (k : Fin K) (i : Fin (b k)) :
    (full k i = true → ek k i < mu) ∧ (full k i = false → mu < ek k i) := by
  obtain ⟨h1, h2⟩ := C94_occupations_partial ht hk hT ho hw hi h k i
  obtain ⟨-, hf⟩ := searchOcc_charge hk h
  have hkT : 0 < (kB : ℝ) * p.T := mul_pos kB_pos hT
  have hs := hsmall k
  constructor
  · intro hfull
    by_contra hc
    have h3 := (h1 hfull).2
    have h4 : f k i ≤ p.occ / 2 := by
      rw [hf, ← half_filled ht]
      exact C07_occupation_monotone t ht _ _ _ ho (div_nonpos_of_nonpos_of_nonneg (by linarith) hkT.le)
    have := mul_le_mul_of_nonneg_left h4 (hw k)
    linarith
  · intro hfull
    by_contra hc
    have h3 := (h2 hfull).2
    have h4 : p.occ / 2 ≤ f k i := by
      rw [hf, ← half_filled ht]
      exact C07_occupation_monotone t ht _ _ _ ho (div_nonneg (by linarith) hkT.le)
    have := mul_le_mul_of_nonneg_left h4 (hw k)
    linarith

/-- bands at -1 and 1 Hartree, Gauss smearing with `kT` = 1/1000: the search succeeds, and all hypotheses hold -/
example : ∃ (mu : ℝ) (f : Bands fun _ : Fin 1 => 2), Monotonic .gauss ∧
    Insulator wideP (fun _ : Fin 1 => 1) (fun _ => ![-1, 1]) (fun _ => ![true, false]) (-1) 1 ∧
    searchOcc false .gauss wideP (fun _ : Fin 1 => toLex (0, 0)) (fun _ => 1) (fun _ => ![-1, 1]) = .ok (mu, f) ∧
    ∀ k : Fin 1, misplaced wideP (fun _ : Fin 1 => 1) (fun _ => 2) (-1) 1 < 1 * (wideP.occ / 2) := by
  refine ⟨0, occs .gauss wideP.T wideP.occ (fun _ => ![-1, 1]) 0, trivial, ⟨by norm_num, ?_, ?_, ?_⟩, ?_, ?_⟩
  · intro k i h
    fin_cases i
    · exact le_rfl
    · exact absurd h (by decide)
  · intro k i h
    fin_cases i
    · exact absurd h (by decide)
    · exact le_rfl
  · simp [wideP]
  · rw [searchOcc_global]
    have : globalSearch false (smearFns .gauss) (smearFns .gauss) wideP
        (oneRank (fun _ : Fin 1 => toLex (0, 0)) (fun _ => 1) (fun _ => ![-1, 1])) = .ok 0 := by
      simp only [globalSearch, Bool.false_eq_true, if_false, chemPotGathered]
      refine findChemPotRun_zero ?_ (by norm_num [wideP])
      rw [kSum_oneRank id _ (Function.injective_of_subsingleton _), wideP_kT]
      simp only [List.ofFn_succ, List.ofFn_zero, List.map_cons, List.map_nil, List.sum_cons, List.sum_nil,
        Fin.sum_univ_one, real_lit, real_sub, id]
      simp only [smearFns, gaussFn, wideP]
      simp
      ring_nf
      rw [erf_neg]
      ring
    rw [this]
    rfl
  · intro k
    rw [misplaced, wideP_kT]
    have h1 := exp_neg_small (x := 1000) (by norm_num)
    have e : -((1 : ℝ) - -1) / (2 * (1 / 1000)) = -1000 := by norm_num
    rw [e]
    simp only [Fin.sum_univ_one, wideP]
    norm_num at h1 ⊢
    linarith

/-- **C94 is false for Methfessel-Paxton and cold smearing.** However large the gap `E`, with either search: an
insulator whose gap is at least a thousand times `kT`, two k-points, one full and one empty band each. The search
reports success with a chemical potential below one of the full bands, that band is left empty, and its k-point
carries at least 1/400 of the weight. -/
theorem C94_not_nonmonotone (t : SmearType) (ht : ¬ Monotonic t) (useNewton : Bool) (E : ℝ) (hE : 1 ≤ E) :
    ∃ (y : ℝ) (w : Fin 2 → ℝ) (f : Bands fun _ : Fin 2 => 2),
      y ≤ 1 / 100 ∧ 0 < w 0 ∧ 1 / 400 ≤ w 1 ∧ w 0 + w 1 = 1 ∧ kB * wideP.T = (1 : ℝ) / 1000 ∧
      Insulator wideP w ![![-2 / 1000, E], ![y, E]] (fun _ => ![true, false]) y E ∧
      searchOcc useNewton t wideP wideKey w ![![-2 / 1000, E], ![y, E]] = .ok (0, f) ∧ 0 < y ∧ f 1 0 ≤ 0 := by
  obtain ⟨y, hy, ho⟩ : ∃ y, 0 < y ∧ Overfills (smearFns t) y := by
    cases t with
    | fermiDirac => exact absurd trivial ht
    | gauss => exact absurd trivial ht
    | gaussianSpline => exact absurd trivial ht
    | cold => exact ⟨9, by norm_num, cold_overfills⟩
    | methfesselPaxton => exact ⟨2, by norm_num, mp_overfills⟩
  obtain ⟨hw0, hw1, hw, -⟩ := wideWeights_ok ho hE
  refine ⟨y / 1000, wideWeights (smearFns t) y E, occs t wideP.T wideP.occ (wideBands y E) 0, ?_, hw0, hw1, hw,
    wideP_kT, ⟨?_, ?_, ?_, ?_⟩, ?_, by positivity, ?_⟩
  · linarith [ho.range.2]
  · linarith [ho.range.2]
  · intro k i h
    fin_cases k <;> fin_cases i
    · show (-2 / 1000 : ℝ) ≤ y / 1000
      linarith
    · exact absurd h (by decide)
    · exact le_rfl
    · exact absurd h (by decide)
  · intro k i h
    fin_cases k <;> fin_cases i
    · exact absurd h (by decide)
    · exact le_rfl
    · exact absurd h (by decide)
    · exact le_rfl
  · rw [Fin.sum_univ_two, ← add_mul, hw]
    simp [wideP]
  · rw [searchOcc_global]
    have := wide_search useNewton ho hE
    simp only [wideBands] at this ⊢
    rw [this]
    rfl
  · show (smearFns t).fn ((0 - wideBands y E 1 0) / (kB * wideP.T)) wideP.occ ≤ 0
    rw [wideP_kT]
    have e : (0 - wideBands y E 1 0) / (1 / 1000) = -y := by
      simp only [wideBands, Matrix.cons_val_one, Matrix.cons_val_zero]
      ring
    rw [e]
    exact ho.below.1

end Nlcg
