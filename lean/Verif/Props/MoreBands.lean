import Verif.Spec.MoreBands
import Verif.Props.Sensitive

/-!
# C133: empty bands and core states may be left out
-/

namespace Nlcg
open Spec Real

variable {K : ℕ} {b e : Fin K → ℕ}

theorem chargeIn_withBands (wk : Fin K → ℝ) (f : Bands fun k => b k + e k) :
    ∑ k, wk k * ∑ i, f k i = chargeIn wk (oldBands f) + chargeIn wk (newBands f) := by
  rw [chargeIn, chargeIn, ← Finset.sum_add_distrib]
  exact Finset.sum_congr rfl fun k _ => by rw [Fin.sum_univ_add, mul_add]; rfl

theorem chargeMoved_of_le {wk : Fin K → ℝ} {f f' : Bands b} (h : ∀ k i, f k i ≤ f' k i) :
    chargeMoved wk f f' = chargeIn wk f' - chargeIn wk f := by
  rw [chargeMoved, chargeIn, chargeIn, ← Finset.sum_sub_distrib]
  refine Finset.sum_congr rfl fun k _ => ?_
  rw [← mul_sub, ← Finset.sum_sub_distrib]
  congr 1
  exact Finset.sum_congr rfl fun i _ => by rw [abs_sub_comm, abs_of_nonneg (sub_nonneg.2 (h k i))]

theorem chargeMoved_comm (wk : Fin K → ℝ) (f f' : Bands b) : chargeMoved wk f f' = chargeMoved wk f' f := by
  simp only [chargeMoved, abs_sub_comm]

theorem chargeIn_mono {wk : Fin K → ℝ} (hw : ∀ k, 0 ≤ wk k) {f f' : Bands b} (h : ∀ k i, f k i ≤ f' k i) :
    chargeIn wk f ≤ chargeIn wk f' :=
  Finset.sum_le_sum fun k _ => mul_le_mul_of_nonneg_left (Finset.sum_le_sum fun i _ => h k i) (hw k)

/-- **C133.** Fermi-Dirac, Gauss or spline smearing. Give the system further bands, at any energies, and `m` electrons
more. Compare the `m` electrons with what the further bands would hold at the chemical potential found without them: the
charge that the old bands lose or gain in either place, and the charge the further bands hold beyond or below that, are
together at most the difference and twice the tolerance. -/
theorem C133_more_bands {t : SmearType} {p : OccParams ℝ} {key : Fin K → Key} {wk : Fin K → ℝ} {ek : Bands b}
    {more : Bands e} {mu mu' m : ℝ} {f : Bands b} {f' : Bands fun k => b k + e k} (ht : Monotonic t)
    (hk : Function.Injective key) (hT : 0 < p.T) (ho : 0 ≤ p.occ) (hw : ∀ k, 0 ≤ wk k)
    (h : searchOcc false t p key wk ek = .ok (mu, f))
    (h' : searchOcc false t (moreElectrons p m) key wk (withBands ek more) = .ok (mu', f')) :
    chargeMoved wk f (oldBands f') + |chargeIn wk (newBands f') - chargeIn wk (occupationsAt t p mu more)| ≤
      2 * p.tol + |m - chargeIn wk (occupationsAt t p mu more)| := by
  obtain ⟨hc, hf⟩ := searchOcc_charge hk h
  obtain ⟨hc', hf'⟩ := searchOcc_charge hk h'
  have hkT : 0 < (kB : ℝ) * p.T := mul_pos kB_pos hT
  have hold : ∀ k i, oldBands f' k i = (smearFns t).fn ((mu' - ek k i) / (kB * p.T)) p.occ := fun k i => by
    rw [oldBands, hf', withBands, Fin.append_left]
    rfl
  have hnew : ∀ k i, newBands f' k i = (smearFns t).fn ((mu' - more k i) / (kB * p.T)) p.occ := fun k i => by
    rw [newBands, hf', withBands, Fin.append_right]
    rfl
  have mono : ∀ {x y : ℝ} (a : ℝ), x ≤ y →
      (smearFns t).fn ((x - a) / (kB * p.T)) p.occ ≤ (smearFns t).fn ((y - a) / (kB * p.T)) p.occ := fun a hxy =>
    C07_occupation_monotone t ht _ _ _ ho (div_le_div_of_nonneg_right (by linarith) hkT.le)
  rw [chargeIn_withBands, show (moreElectrons p m).ne = p.ne + m from rfl, show (moreElectrons p m).tol = p.tol from rfl,
    abs_lt] at hc'
  rw [show ∑ k, wk k * ∑ i, f k i = chargeIn wk f from rfl, abs_lt] at hc
  rcases le_total mu mu' with hm | hm
  · have h1 : ∀ k i, f k i ≤ oldBands f' k i := fun k i => by rw [hf, hold]; exact mono _ hm
    have h2 : chargeIn wk (occupationsAt t p mu more) ≤ chargeIn wk (newBands f') :=
      chargeIn_mono hw fun k i => by rw [hnew]; exact mono _ hm
    rw [chargeMoved_of_le h1, abs_of_nonneg (sub_nonneg.2 h2)]
    have := le_abs_self (m - chargeIn wk (occupationsAt t p mu more))
    linarith
  · have h1 : ∀ k i, oldBands f' k i ≤ f k i := fun k i => by rw [hf, hold]; exact mono _ hm
    have h2 : chargeIn wk (newBands f') ≤ chargeIn wk (occupationsAt t p mu more) :=
      chargeIn_mono hw fun k i => by rw [hnew]; exact mono _ hm
    rw [chargeMoved_comm, chargeMoved_of_le h1, abs_sub_comm, abs_of_nonneg (sub_nonneg.2 h2)]
    have := neg_abs_le (m - chargeIn wk (occupationsAt t p mu more))
    linarith

/-- bounds for every band bound the charge -/
theorem chargeIn_le {wk : Fin K → ℝ} (hw : ∀ k, 0 ≤ wk k) {f : Bands e} {c : ℝ} (h : ∀ k i, f k i ≤ c) :
    chargeIn wk f ≤ (∑ k, wk k * e k) * c := by
  rw [chargeIn, Finset.sum_mul]
  refine Finset.sum_le_sum fun k _ => ?_
  have : ∑ i, f k i ≤ ∑ _ : Fin (e k), c := Finset.sum_le_sum fun i _ => h k i
  rw [Finset.sum_const, Finset.card_univ, Fintype.card_fin, nsmul_eq_mul] at this
  calc wk k * ∑ i, f k i ≤ wk k * ((e k : ℝ) * c) := mul_le_mul_of_nonneg_left this (hw k)
    _ = wk k * e k * c := by ring

/-- **C133**, empty bands: further bands that lie by `d` or more above the chemical potential and no further electrons. The
charge moved between the old bands and the charge in the further ones are small of the order of the tail of the smearing
function at `d`, and the tolerance. -/
theorem C133_empty_bands {t : SmearType} {p : OccParams ℝ} {key : Fin K → Key} {wk : Fin K → ℝ} {ek : Bands b}
    {more : Bands e} {mu mu' d : ℝ} {f : Bands b} {f' : Bands fun k => b k + e k} (ht : Monotonic t)
    (hk : Function.Injective key) (hT : 0 < p.T) (ho : 0 ≤ p.occ) (hw : ∀ k, 0 ≤ wk k) (hd : 0 ≤ d)
    (hab : ∀ k i, mu + d ≤ more k i) (h : searchOcc false t p key wk ek = .ok (mu, f))
    (h' : searchOcc false t p key wk (withBands ek more) = .ok (mu', f')) :
    chargeMoved wk f (oldBands f') + chargeIn wk (newBands f') ≤
      2 * p.tol + 2 * ((∑ k, wk k * e k) * (p.occ * exp (-(d / (kB * p.T))))) := by
  have hkT : 0 < (kB : ℝ) * p.T := mul_pos kB_pos hT
  have h0 : moreElectrons p 0 = p := by simp [moreElectrons]
  have main := C133_more_bands (m := 0) ht hk hT ho hw h (by rw [h0]; exact h')
  have hX : chargeIn wk (occupationsAt t p mu more) ≤ (∑ k, wk k * e k) * (p.occ * exp (-(d / (kB * p.T)))) := by
    refine chargeIn_le hw fun k i => ?_
    have hx : 0 ≤ (more k i - mu) / (kB * p.T) := div_nonneg (by linarith [hab k i]) hkT.le
    have h1 := (tails ht ho hx).1
    rw [occupationsAt, show (mu - more k i) / (kB * p.T) = -((more k i - mu) / (kB * p.T)) by ring]
    refine h1.trans (mul_le_mul_of_nonneg_left (exp_le_exp.2 ?_) ho)
    rw [neg_le_neg_iff]
    exact div_le_div_of_nonneg_right (by linarith [hab k i]) hkT.le
  have hX0 : 0 ≤ chargeIn wk (occupationsAt t p mu more) := by
    refine Finset.sum_nonneg fun k _ => mul_nonneg (hw k) (Finset.sum_nonneg fun i _ => ?_)
    exact (C06_occupation_bounds t ht _ _ ho).1
  rw [zero_sub, abs_neg, abs_of_nonneg hX0] at main
  have := le_abs_self (chargeIn wk (newBands f') - chargeIn wk (occupationsAt t p mu more))
  linarith

/-- **C133**, core states: further bands that lie by `d` or more below the chemical potential, and the electrons that fill
them. The charge moved between the old bands, and the charge missing in the further ones, are small of the order of the
tail of the smearing function at `d`, and the tolerance. -/
theorem C133_core_states {t : SmearType} {p : OccParams ℝ} {key : Fin K → Key} {wk : Fin K → ℝ} {ek : Bands b}
    {more : Bands e} {mu mu' d : ℝ} {f : Bands b} {f' : Bands fun k => b k + e k} (ht : Monotonic t)
    (hk : Function.Injective key) (hT : 0 < p.T) (ho : 0 ≤ p.occ) (hw : ∀ k, 0 ≤ wk k) (hd : 0 ≤ d)
    (hbe : ∀ k i, more k i ≤ mu - d) (h : searchOcc false t p key wk ek = .ok (mu, f))
    (h' : searchOcc false t (moreElectrons p ((∑ k, wk k * e k) * p.occ)) key wk (withBands ek more) = .ok (mu', f')) :
    chargeMoved wk f (oldBands f') + ((∑ k, wk k * e k) * p.occ - chargeIn wk (newBands f')) ≤
      2 * p.tol + 2 * ((∑ k, wk k * e k) * (p.occ * exp (-(d / (kB * p.T))))) := by
  have hkT : 0 < (kB : ℝ) * p.T := mul_pos kB_pos hT
  have main := C133_more_bands ht hk hT ho hw h h'
  have hX : (∑ k, wk k * e k) * p.occ - chargeIn wk (occupationsAt t p mu more) ≤
      (∑ k, wk k * e k) * (p.occ * exp (-(d / (kB * p.T)))) := by
    have hneg : chargeIn wk (fun k i => p.occ - occupationsAt t p mu more k i) ≤
        (∑ k, wk k * e k) * (p.occ * exp (-(d / (kB * p.T)))) := by
      refine chargeIn_le hw fun k i => ?_
      have hx : 0 ≤ (mu - more k i) / (kB * p.T) := div_nonneg (by linarith [hbe k i]) hkT.le
      have h1 := (tails ht ho hx).2
      rw [occupationsAt]
      refine h1.trans (mul_le_mul_of_nonneg_left (exp_le_exp.2 ?_) ho)
      rw [neg_le_neg_iff]
      exact div_le_div_of_nonneg_right (by linarith [hbe k i]) hkT.le
    refine le_trans (le_of_eq ?_) hneg
    rw [chargeIn, chargeIn, Finset.sum_mul, ← Finset.sum_sub_distrib]
    refine Finset.sum_congr rfl fun k _ => ?_
    rw [Finset.sum_sub_distrib, Finset.sum_const, Finset.card_univ, Fintype.card_fin, nsmul_eq_mul]
    ring
  have hX0 : chargeIn wk (occupationsAt t p mu more) ≤ (∑ k, wk k * e k) * p.occ :=
    chargeIn_le hw fun k i => (C06_occupation_bounds t ht _ _ ho).2
  rw [abs_of_nonneg (sub_nonneg.2 hX0)] at main
  have := neg_abs_le (chargeIn wk (newBands f') - chargeIn wk (occupationsAt t p mu more))
  linarith

/-- a search that starts at a solution -/
theorem search_at_zero {p : OccParams ℝ} {b : Fin 1 → ℕ} {ek : Bands b} (ht : 0 < p.tol)
    (h : p.ne = ∑ i, (smearFns .fermiDirac).fn ((0 - ek 0 i) / (kB * p.T)) p.occ) :
    ∃ f, searchOcc false .fermiDirac p (fun _ : Fin 1 => toLex (0, 0)) (fun _ => 1) ek = .ok (0, f) := by
  refine ⟨occs .fermiDirac p.T p.occ ek 0, ?_⟩
  rw [searchOcc_global]
  have : globalSearch false (smearFns .gauss) (smearFns .fermiDirac) p
      (oneRank (fun _ : Fin 1 => toLex (0, 0)) (fun _ => 1) ek) = .ok 0 := by
    simp only [globalSearch, Bool.false_eq_true, if_false, chemPotGathered]
    refine findChemPotRun_zero ?_ ht
    rw [kSum_oneRank id _ (Function.injective_of_subsingleton _), Fin.sum_univ_one]
    simp only [List.map_ofFn, List.sum_ofFn, Function.comp_def, real_lit, real_sub, id, Rat.cast_zero]
    rw [h]
    simp
  rw [this]
  rfl

/-- bands at -1 and 1 Hartree, and the same with an empty band at 5 Hartree, and with a core state at -5 Hartree and its
two electrons: all searches succeed, with the chemical potential 0 -/
example : (∃ f, searchOcc false .fermiDirac wideP (fun _ : Fin 1 => toLex (0, 0)) (fun _ => 1) (fun _ => ![-1, 1]) = .ok (0, f)) ∧
    (∃ f, searchOcc false .fermiDirac wideP (fun _ : Fin 1 => toLex (0, 0)) (fun _ => 1)
      (withBands (fun _ => ![-1, 1]) (fun _ => ![5])) = .ok (0, f)) ∧
    ∃ f, searchOcc false .fermiDirac (moreElectrons wideP ((∑ _ : Fin 1, (1 : ℝ) * (1 : ℕ)) * wideP.occ))
      (fun _ : Fin 1 => toLex (0, 0)) (fun _ => 1) (withBands (fun _ => ![-1, 1]) (fun _ => ![-5])) = .ok (0, f) := by
  have hT := wideP_kT
  have hT' : ∀ m, ((kB : ℚ) : ℝ) * (moreElectrons wideP m).T = 1 / 1000 := fun m => hT
  have ht : 0 < wideP.tol := by norm_num [wideP]
  refine ⟨search_at_zero ht ?_, search_at_zero ht ?_, search_at_zero ht ?_⟩
  · rw [hT, Fin.sum_univ_two]
    norm_num [smearFns, fdFn, wideP]
  · rw [hT, Fin.sum_univ_add, Fin.sum_univ_two, Fin.sum_univ_one]
    simp only [withBands, Fin.append_left, Fin.append_right]
    norm_num [smearFns, fdFn, wideP]
  · rw [hT', Fin.sum_univ_add, Fin.sum_univ_two, Fin.sum_univ_one]
    simp only [withBands, Fin.append_left, Fin.append_right]
    norm_num [smearFns, fdFn, wideP, moreElectrons]

end Nlcg
