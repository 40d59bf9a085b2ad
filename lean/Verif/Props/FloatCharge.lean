import Verif.Proofs.FloatSum
import Verif.Props.ChemPot
import Mathlib.Analysis.Complex.Exponential
import Mathlib.Data.Int.Log
import Mathlib.Algebra.Order.Floor.Ring
import Mathlib.Algebra.Order.Archimedean.Real.Basic

/-!
# C95: charge conservation in floating point

`Accurate r u η` (`Spec/FloatSum.lean`): relative rounding error `u`, underflow threshold `η`, symmetric rounding.
-/

namespace Nlcg
open Spec Arith

variable {r : Rounding} {u η : ℝ}

theorem totalCharge_real (g : ℝ → ℝ) (sf : SmearFns (F64 r)) (d : Spec.Dist (F64 r)) (mu kT occ : F64 r) :
    totalCharge (realPoints g d) (realOccs g (d.energies.map (occupy sf mu kT occ)))
      = (d.flatten.map fun q => g (val q.weight) *
          ((q.energies.map fun e => sf.fn ((mu -ᶠ e) /ᶠ kT) occ).map fun v => g (val v)).sum).sum := by
  unfold totalCharge realPoints realOccs Dist.energies
  induction d with
  | nil => simp
  | cons l d ih =>
    simp only [List.map_cons, List.zipWith_cons_cons, List.sum_cons, List.flatten_cons, List.map_append,
      List.sum_append]
    rw [ih]
    congr 1
    induction l with
    | nil => simp [occupy]
    | cons q l ihl =>
      simp only [List.map_cons, occupy, List.zipWith_cons_cons, List.sum_cons] at ihl ⊢
      rw [ihl]

/-- **C95.** In floating point, with any smearing function whatsoever and any distribution of the k-points: after a
successful bracketing search every occupation that is returned is a finite number, and the charge they really hold,
added up without rounding, is the number of electrons up to the tolerance and the rounding errors of the sums; or all
ranks report failure. -/
theorem C95_charge (h : Accurate r u η) (ndebug : Bool) (gauss sf : SmearFns (F64 r)) (p : OccParams (F64 r))
    {ne tol : ℝ} (hN : p.ne = .num ne) (htol : p.tol = .num tol) (d : Spec.Dist (F64 r)) (hd : d.Proper)
    (hne : ndebug = true ∨ ∀ q ∈ d, ∀ k ∈ q, k.energies ≠ []) {B : ℕ} (hB : ∀ q ∈ d, ∀ k ∈ q, k.energies.length ≤ B) :
    ∃ outs, occupationFromMvector ndebug false gauss sf p d.energies d.weights = .ok outs ∧
      ((∃ (mu : F64 r) (fs : List (KMap Key (List (F64 r)))), outs = fs.map (fun f => .ok (mu, f)) ∧
          fs.length = d.length ∧ (∀ f ∈ fs, ∀ e ∈ f, ∀ v ∈ e.2, ∃ y, v = .num y) ∧
          |ne - totalCharge (realPoints id d) (realOccs id fs)|
            ≤ chargeError u η tol d.flatten.length B (d.flatten.map fun q => |val q.weight|).sum
              (totalCharge (realPoints (|·|) d) (realOccs (|·|) fs))) ∨
       outs = List.replicate d.length (.throw .runtimeError)) := by
  refine ⟨_, occupation_eq ndebug false gauss sf p d hd hne, ?_⟩
  have hlen : d.energies.length = d.length := by simp [Dist.energies]
  rcases findChemPotRun_cases (f := fun mu => p.ne -ᶠ kSum id sf.fn
    (KMap.ofRange d.energies.flatten) (KMap.ofRange d.weights.flatten) p.T p.occ mu)
    (mu0 := lit 0) (tol := p.tol) with ⟨mu, hm, hlt⟩ | hm
  · left
    set kT := lit kB *ᶠ p.T with hkT
    have hs : globalSearch false gauss sf p d = .ok mu := hm
    refine ⟨mu, d.energies.map (occupy sf mu kT p.occ), ?_, by simpa using hlen, ?_⟩
    · rw [hs, List.map_map]
      rfl
    -- the accepted difference is a number
    obtain ⟨δ, hδ, hδt⟩ : ∃ δ, (p.ne -ᶠ kSum id sf.fn (KMap.ofRange d.energies.flatten)
        (KMap.ofRange d.weights.flatten) p.T p.occ mu) = .num δ ∧ |δ| < tol := by
      rw [htol] at hlt
      generalize p.ne -ᶠ kSum id sf.fn (KMap.ofRange d.energies.flatten)
        (KMap.ofRange d.weights.flatten) p.T p.occ mu = v at hlt
      cases v with
      | num δ => exact ⟨δ, rfl, of_decide_eq_true hlt⟩
      | inf b => cases hlt
      | nan => cases hlt
    obtain ⟨x, s, hx, hk, hr⟩ := F64.sub_num hδ
    rw [hN] at hx
    cases hx
    set f : KPoint (F64 r) → List (F64 r) := fun q => q.energies.map fun e => sf.fn ((mu -ᶠ e) /ᶠ kT) p.occ with hf
    have hsum : kSum id sf.fn (KMap.ofRange d.energies.flatten) (KMap.ofRange d.weights.flatten) p.T p.occ mu
        = ((KMap.ofRange d.weights.flatten).map fun e => e.2 *ᶠ
            sumFunc sf.fn (energiesAt (KMap.ofRange d.energies.flatten) e.1) mu p.T p.occ).foldl (· +ᶠ ·) (lit 0) := by
      rw [List.foldl_map]
      rfl
    rw [hsum] at hk
    obtain ⟨h1, h2⟩ := points_error h (w := KPoint.weight) (f := f) (qs := d.flatten) (B := B) (fun q hq => by
        obtain ⟨l, hl, hq⟩ := List.mem_flatten.1 hq
        simpa [hf] using hB l hl q hq) (ts := _) (by
        have hp := (KMap.ofRange_perm_self (Dist.weights_nodup hd)).map fun e => e.2 *ᶠ
            sumFunc sf.fn (energiesAt (KMap.ofRange d.energies.flatten) e.1) mu p.T p.occ
        rw [Dist.weights_flatten, List.map_map] at hp
        have he : (d.flatten.map ((fun e => e.2 *ᶠ sumFunc sf.fn (energiesAt (KMap.ofRange d.energies.flatten) e.1) mu
            p.T p.occ) ∘ fun q => (q.key, q.weight)))
            = d.flatten.map fun q => q.weight *ᶠ (f q).foldl (· +ᶠ ·) (lit 0) := by
          refine List.map_congr_left fun q hq => ?_
          have hq' : energiesAt (KMap.ofRange d.energies.flatten) q.key = q.energies := by
            unfold energiesAt
            rw [KMap.lookup_ofRange, KMap.lookup_of_mem_nodup (Dist.energies_nodup hd) (v := q.energies)]
            rw [Dist.energies_flatten]
            exact List.mem_map.mpr ⟨q, hq, rfl⟩
          simp only [Function.comp_apply, hq', hf, List.foldl_map, sumFunc, h.swap]
          rfl
        rw [he] at hp
        rwa [Dist.weights_flatten]) hk
    refine ⟨?_, ?_⟩
    · intro F hF e he v hv
      obtain ⟨l, hl, rfl⟩ := List.mem_map.1 hF
      simp only [Dist.energies, List.mem_map] at hl
      obtain ⟨q, hq, rfl⟩ := hl
      obtain ⟨e', he', rfl⟩ := List.mem_map.1 he
      obtain ⟨k, hk', rfl⟩ := List.mem_map.1 he'
      exact (h1 k (List.mem_flatten.2 ⟨q, hq, hk'⟩)).2 v hv
    · rw [totalCharge_real, totalCharge_real]
      have e1 : |ne - s| ≤ (tol + η) / (1 - u) := by
        rw [le_div_iff₀ (by linarith [h.u_lt])]
        have := h.error (ne - s)
        rw [← hr] at this
        have h3 : |ne - s| ≤ |δ| + |δ - (ne - s)| := by
          have := abs_sub_le (ne - s) δ 0
          rw [sub_zero, sub_zero, abs_sub_comm (ne - s)] at this
          linarith
        linarith
      simp only [chargeError, id]
      have := abs_sub_le ne s (d.flatten.map fun q => val q.weight * ((f q).map val).sum).sum
      have h4 : (d.flatten.map fun q => val q.weight * ((f q).map fun v => val v).sum).sum
        = (d.flatten.map fun q => val q.weight * ((f q).map val).sum).sum := rfl
      rw [h4]
      linarith
  · right
    have : globalSearch false gauss sf p d = .throw .runtimeError := hm
    rw [this, ← hlen]
    exact map_const_of_length rfl _

/-- **C95.** What this means for doubles: with up to ten thousand k-points and bands, and weights that add up to at most
2, the charge is right to the tolerance, plus 10⁻¹¹ of the charge held (all terms taken positive), plus 10⁻³⁰⁰. -/
theorem C95_doubles {tol W M : ℝ} {K B : ℕ} (htol : 0 ≤ tol) (hK : K ≤ 10000) (hB : B ≤ 10000) (hW0 : 0 ≤ W) (hW : W ≤ 2)
    (hM : 0 ≤ M) :
    chargeError (1 / 2 ^ 52) (1 / 2 ^ 1074) tol K B W M ≤ (1 + 1 / 2 ^ 51) * tol + M / 10 ^ 11 + 1 / 10 ^ 300 := by
  have hpow : ∀ n : ℕ, n ≤ 20001 → ((1 : ℝ) + 1 / 2 ^ 52) ^ n ≤ 1 + 1 / 10 ^ 11 := by
    intro n hn
    have h1 : ((1 : ℝ) + 1 / 2 ^ 52) ^ n ≤ Real.exp (n * (1 / 2 ^ 52)) := by
      rw [Real.exp_nat_mul]
      refine pow_le_pow_left₀ (by positivity) ?_ n
      have := Real.add_one_le_exp ((1 : ℝ) / 2 ^ 52)
      linarith
    have hn' : (n : ℝ) ≤ 20001 := by exact_mod_cast hn
    have h2 : (n : ℝ) * (1 / 2 ^ 52) ≤ 5 / 10 ^ 12 := by
      refine (mul_le_mul_of_nonneg_right hn' (by positivity)).trans ?_
      norm_num
    refine h1.trans ((Real.exp_le_exp.2 h2).trans ?_)
    have h3 := Real.abs_exp_sub_one_le (x := 5 / 10 ^ 12) (by rw [abs_of_pos] <;> norm_num)
    rw [abs_of_pos (a := (5 : ℝ) / 10 ^ 12) (by norm_num)] at h3
    have := (abs_le.1 h3).2
    norm_num at this ⊢
    linarith
  have hη : (0 : ℝ) < 1 / 2 ^ 1074 := by positivity
  have hη' : (1 : ℝ) / 2 ^ 1074 ≤ 1 / 10 ^ 320 := by
    refine one_div_le_one_div_of_le (by positivity) ?_
    have h1 : ((10 : ℝ) ^ 3) ^ 107 ≤ (2 ^ 10) ^ 107 := pow_le_pow_left₀ (by norm_num) (by norm_num) 107
    rw [← pow_mul, ← pow_mul] at h1
    have h2 : (10 : ℝ) ^ 320 ≤ 10 ^ (3 * 107) := pow_le_pow_right₀ (by norm_num) (by norm_num)
    have h3 : (2 : ℝ) ^ (10 * 107) ≤ 2 ^ 1074 := pow_le_pow_right₀ (by norm_num) (by norm_num)
    exact h2.trans (h1.trans h3)
  unfold chargeError
  generalize (1 : ℝ) / 2 ^ 1074 = η at *
  have e1 : (tol + η) / (1 - 1 / 2 ^ 52) ≤ (1 + 1 / 2 ^ 51) * (tol + η) := by
    rw [div_le_iff₀ (by norm_num)]
    have : (1 : ℝ) ≤ (1 + 1 / 2 ^ 51) * (1 - 1 / 2 ^ 52) := by norm_num
    nlinarith
  have e2 := mul_le_mul_of_nonneg_right (sub_le_sub_right (hpow (B + K + 1) (by omega)) 1) hM
  have e3 : η * (1 + 1 / 2 ^ 52) ^ K * (2 * K + B * (1 + 1 / 2 ^ 52) ^ (B + 1) * W) ≤ η * 2 * (2 * 10000 + 10000 * 2 * 2) := by
    have b1 : ((1 : ℝ) + 1 / 2 ^ 52) ^ K ≤ 2 := (hpow K (by omega)).trans (by norm_num)
    have b2 : ((1 : ℝ) + 1 / 2 ^ 52) ^ (B + 1) ≤ 2 := (hpow (B + 1) (by omega)).trans (by norm_num)
    have b3 : (K : ℝ) ≤ 10000 := by exact_mod_cast hK
    have b4 : (B : ℝ) ≤ 10000 := by exact_mod_cast hB
    gcongr
  have e4 : (1 + 1 / 2 ^ 51) * η + η * 2 * (2 * 10000 + 10000 * 2 * 2) ≤ 1 / 10 ^ 300 := by
    have : (1 + 1 / 2 ^ 51) * η + η * 2 * (2 * 10000 + 10000 * 2 * 2) = (1 + 1 / 2 ^ 51 + 120000) * η := by ring
    rw [this]
    refine (mul_le_mul_of_nonneg_left hη' (by positivity)).trans ?_
    have h3 : (10 : ℝ) ^ 320 = 10 ^ 300 * 10 ^ 20 := by rw [← pow_add]
    have h4 : (1 + 1 / 2 ^ 51 + 120000) * (1 / (10 ^ 300 * 10 ^ 20)) = ((1 + 1 / 2 ^ 51 + 120000) / 10 ^ 20) * ((1 : ℝ) / 10 ^ 300) := by
      ring
    rw [h3, h4]
    exact mul_le_of_le_one_left (by positivity) (by norm_num)
  have e5 : (1 + 1 / 10 ^ 11 - 1) * M = M / 10 ^ 11 := by ring
  rw [e5] at e2
  linarith

/-! ## A concrete case: binary numbers with 53 digits, rounded towards zero -/

/-- the exponent of the last of 53 binary digits of `y` -/
noncomputable def lastDigit (y : ℝ) : ℤ := Int.log 2 y - 52

/-- a positive number cut off after 53 binary digits -/
noncomputable def chopPos (y : ℝ) : ℝ := ⌊y / 2 ^ lastDigit y⌋ * 2 ^ lastDigit y

noncomputable def chop (x : ℝ) : ℝ := if x < 0 then -chopPos (-x) else chopPos x

theorem chopPos_zero : chopPos 0 = 0 := by simp [chopPos]

theorem lastDigit_le {y : ℝ} (hy : 0 < y) : 2 ^ 52 * (2 : ℝ) ^ lastDigit y ≤ y ∧ y < 2 ^ 53 * (2 : ℝ) ^ lastDigit y := by
  have h1 := Int.zpow_log_le_self (b := 2) (by norm_num) hy
  have h2 := Int.lt_zpow_succ_log_self (b := 2) (by norm_num) y
  push_cast at h1 h2
  have e1 : (2 : ℝ) ^ Int.log 2 y = 2 ^ 52 * 2 ^ lastDigit y := by
    rw [lastDigit, zpow_sub₀ two_ne_zero]
    norm_num
    ring
  have e2 : (2 : ℝ) ^ (Int.log 2 y + 1) = 2 ^ 53 * 2 ^ lastDigit y := by
    rw [zpow_add₀ two_ne_zero, e1]
    ring
  rw [e1] at h1
  rw [e2] at h2
  exact ⟨h1, h2⟩

theorem chopPos_bounds {y : ℝ} (hy : 0 ≤ y) : 0 ≤ chopPos y ∧ chopPos y ≤ y ∧ y - chopPos y ≤ y / 2 ^ 52 := by
  rcases hy.eq_or_lt with rfl | hy
  · simp [chopPos_zero]
  · have hp : (0 : ℝ) < 2 ^ lastDigit y := by positivity
    have h1 := Int.floor_le (y / 2 ^ lastDigit y)
    have h2 := Int.lt_floor_add_one (y / 2 ^ lastDigit y)
    have h3 := (lastDigit_le hy).1
    rw [le_div_iff₀ hp] at h1
    rw [div_lt_iff₀ hp] at h2
    refine ⟨mul_nonneg ?_ hp.le, h1, ?_⟩
    · exact_mod_cast Int.floor_nonneg.2 (by positivity)
    · rw [chopPos, le_div_iff₀ (by positivity)]
      nlinarith

theorem chopPos_pos {y : ℝ} (hy : 0 < y) : 0 < chopPos y := by
  have h := (chopPos_bounds hy.le).2.2
  norm_num at h
  linarith

theorem chopPos_again {y : ℝ} (hy : 0 ≤ y) : chopPos (chopPos y) = chopPos y := by
  rcases hy.eq_or_lt with rfl | hy
  · simp [chopPos_zero]
  · have hp : (0 : ℝ) < 2 ^ lastDigit y := by positivity
    obtain ⟨h1, h2⟩ := lastDigit_le hy
    rw [← le_div_iff₀ hp] at h1
    have h3 : (2 : ℤ) ^ 52 ≤ ⌊y / 2 ^ lastDigit y⌋ := Int.le_floor.2 (by exact_mod_cast h1)
    have h4 : ((2 : ℝ) ^ 52 : ℝ) ≤ ⌊y / 2 ^ lastDigit y⌋ := by exact_mod_cast h3
    have h5 : (2 : ℝ) ^ Int.log 2 y = 2 ^ 52 * 2 ^ lastDigit y := by
      rw [lastDigit, zpow_sub₀ two_ne_zero]
      norm_num
      ring
    have hc := chopPos_pos hy
    have hl : Int.log 2 (chopPos y) = Int.log 2 y := by
      refine le_antisymm (Int.log_mono_right hc (chopPos_bounds hy.le).2.1) ?_
      refine (Int.zpow_le_iff_le_log (b := 2) (by norm_num) hc).1 ?_
      push_cast
      rw [h5, chopPos]
      exact mul_le_mul_of_nonneg_right h4 hp.le
    have he : lastDigit (chopPos y) = lastDigit y := by rw [lastDigit, hl, lastDigit]
    rw [chopPos, he]
    conv_lhs => rw [chopPos, mul_div_assoc, div_self hp.ne', mul_one, Int.floor_intCast]
    rfl

theorem chop_of_nonneg {x : ℝ} (h : 0 ≤ x) : chop x = chopPos x := if_neg h.not_gt

theorem chop_neg (x : ℝ) : chop (-x) = -chop x := by
  rcases lt_trichotomy x 0 with h | rfl | h
  · rw [chop, chop, if_neg (by linarith), if_pos h, neg_neg]
  · simp [chop, chopPos_zero]
  · rw [chop, chop, if_pos (by linarith), if_neg (by linarith), neg_neg]

theorem chop_cases {P : ℝ → Prop} (hp : ∀ x, 0 ≤ x → P x) (hn : ∀ x, P x → P (-x)) (x : ℝ) : P x := by
  rcases le_total 0 x with h | h
  · exact hp x h
  · have := hn _ (hp (-x) (by linarith))
    rwa [neg_neg] at this

noncomputable def chopPlatform : Rounding where
  rnd := chop
  huge := 2 ^ 1024
  exp := fun x => chop (Real.exp x)
  log := fun x => chop (Real.log x)
  sqrt := fun x => chop √x
  erf := fun _ => 0
  erfc := fun _ => 1
  pi := 3

theorem chopPlatform_accurate : Accurate chopPlatform (1 / 2 ^ 52) 0 where
  u_nonneg := by norm_num
  u_lt := by norm_num
  η_nonneg := le_rfl
  error x := by
    show |chop x - x| ≤ _
    refine chop_cases (P := fun x => |chop x - x| ≤ 1 / 2 ^ 52 * |x| + 0) (fun x hx => ?_) (fun x h => ?_) x
    · obtain ⟨h1, h2, h3⟩ := chopPos_bounds hx
      rw [chop_of_nonneg hx, abs_sub_comm, abs_of_nonneg (by linarith), abs_of_nonneg hx]
      linarith
    · rw [chop_neg, abs_neg, show -chop x - -x = -(chop x - x) by ring, abs_neg]
      exact h
  symm := chop_neg
  again x := by
    show chop (chop x) = chop x
    refine chop_cases (P := fun x => chop (chop x) = chop x) (fun x hx => ?_) (fun x h => ?_) x
    · rw [chop_of_nonneg hx, chop_of_nonneg (chopPos_bounds hx).1, chopPos_again hx]
    · rw [chop_neg, chop_neg, h]
  one := by
    show chop 1 = 1
    rw [chop_of_nonneg zero_le_one, chopPos, lastDigit, Int.log_one_right]
    norm_num
  huge := by
    show (1 : ℝ) < 2 ^ 1024
    exact one_lt_pow₀ (by norm_num) (by norm_num)
  below x := by
    show |x| < _ → |chop x| < _
    refine chop_cases (P := fun x => |x| < (2 : ℝ) ^ 1024 → |chop x| < 2 ^ 1024) (fun x hx h => ?_) (fun x h => ?_) x
    · obtain ⟨h1, h2, -⟩ := chopPos_bounds hx
      rw [abs_of_nonneg hx] at h
      rw [chop_of_nonneg hx, abs_of_nonneg h1]
      linarith
    · rw [chop_neg, abs_neg, abs_neg]
      exact h

/-- a step: bands below the chemical potential are full -/
noncomputable def chopStep : SmearFns (F64 chopPlatform) where
  fn x mo := if lit 0 <ᶠ x then mo else lit 0
  delta _ _ := lit 0
  dxdelta _ _ := lit 0
  entropy _ _ := lit 0

theorem chop_norm {x : ℝ} (h : |x| < 2 ^ 1024) : (F64.norm x : F64 chopPlatform) = .num (chop x) := if_pos h

theorem chop_one : chop 1 = 1 := chopPlatform_accurate.one

theorem one_lt_huge : (1 : ℝ) < 2 ^ 1024 := chopPlatform_accurate.huge

/-- the count at chemical potential zero: one band below, one above -/
theorem chop_count : sumFunc chopStep.fn [.num (-1), .num 1] (.num 0) (.num 300) (.num 1) = .num 1 := by
  have h3 : ∀ x : ℝ, |x| ≤ 2 ^ 100 → |x| < 2 ^ 1024 := fun x hx =>
    lt_of_le_of_lt hx (pow_lt_pow_right₀ (by norm_num) (by norm_num))
  have hkB : (0 : ℝ) < (kB : ℚ) ∧ ((kB : ℚ) : ℝ) < 1 ∧ (1 : ℝ) / 10 ^ 10 < (kB : ℚ) := by
    refine ⟨?_, ?_, ?_⟩ <;> norm_num [kB]
  obtain ⟨c, hc, hc1, hc2⟩ : ∃ c, (lit kB *ᶠ .num 300 : F64 chopPlatform) = .num c ∧ 1 / 10 ^ 10 < c ∧ c < 300 := by
    have h1 : (lit kB : F64 chopPlatform) = .num (chop (kB : ℚ)) := chop_norm (h3 _ (by
      rw [abs_of_pos hkB.1]; linarith [one_le_pow₀ (n := 100) (by norm_num : (1 : ℝ) ≤ 2)]))
    rw [h1, chop_of_nonneg hkB.1.le]
    obtain ⟨a1, a2, a3⟩ := chopPos_bounds hkB.1.le
    have a4 : 0 ≤ chopPos (kB : ℚ) * 300 := by positivity
    refine ⟨chop (chopPos (kB : ℚ) * 300), chop_norm (h3 _ ?_), ?_, ?_⟩
    · rw [abs_of_nonneg a4]
      norm_num
      linarith
    · obtain ⟨b1, b2, b3⟩ := chopPos_bounds a4
      rw [chop_of_nonneg a4]
      norm_num at *
      linarith
    · rw [chop_of_nonneg a4]
      have := (chopPos_bounds a4).2.1
      linarith
  have hc0 : 0 < c := lt_trans (by norm_num) hc1
  have hdiv : ∀ x : ℝ, |x| = 1 → (.num x /ᶠ .num c : F64 chopPlatform) = .num (chop (x / c)) := by
    intro x hx
    show F64.div _ _ = _
    rw [F64.div, if_neg hc0.ne']
    refine chop_norm (h3 _ ?_)
    rw [abs_div, hx, abs_of_pos hc0, div_le_iff₀ hc0]
    norm_num at *
    linarith
  have s1 : (.num 0 -ᶠ .num (-1) : F64 chopPlatform) = .num 1 := by
    show F64.norm (0 + - -1) = _
    rw [chop_norm (by norm_num; exact one_lt_huge)]
    norm_num [chop_one]
  have s2 : (.num 0 -ᶠ .num 1 : F64 chopPlatform) = .num (-1) := by
    show F64.norm (0 + -1) = _
    rw [chop_norm (by norm_num; exact one_lt_huge)]
    norm_num [chop_one, chop_neg]
  have p1 : 0 < chop (1 / c) := by
    have : 0 < 1 / c := by positivity
    rw [chop_of_nonneg this.le]
    exact chopPos_pos this
  have p2 : chop (-1 / c) < 0 := by
    rw [neg_div, chop_neg]
    linarith
  have l0 := chopPlatform_accurate.lit_zero
  have f1 : chopStep.fn (.num (chop (1 / c))) (.num 1) = .num 1 := by
    show (if lit 0 <ᶠ _ then _ else _) = _
    rw [l0]
    exact if_pos (decide_eq_true p1)
  have f2 : chopStep.fn (.num (chop (-1 / c))) (.num 1) = .num 0 := by
    show (if lit 0 <ᶠ _ then _ else _) = _
    rw [l0]
    have : (F64.num 0 <ᶠ (.num (chop (-1 / c)) : F64 chopPlatform)) = false := decide_eq_false p2.not_gt
    rw [this]
    rfl
  have g1 : (.num 0 +ᶠ .num 1 : F64 chopPlatform) = .num 1 := by
    show F64.norm (0 + 1) = _
    rw [chop_norm (by norm_num; exact one_lt_huge)]
    norm_num [chop_one]
  have g2 : (.num 1 +ᶠ .num 0 : F64 chopPlatform) = .num 1 := by
    show F64.norm (1 + 0) = _
    rw [chop_norm (by norm_num; exact one_lt_huge)]
    norm_num [chop_one]
  simp only [sumFunc, List.foldl_cons, List.foldl_nil, chopPlatform_accurate.swap, hc, s1, s2, hdiv 1 (by norm_num),
    hdiv (-1) (by norm_num), f1, f2, l0, g1, g2]

/-- one electron, one band below zero, one above: the search succeeds, and the hypotheses hold -/
example : Accurate chopPlatform (1 / 2 ^ 52) 0 ∧ ∃ outs, occupationFromMvector false false chopStep chopStep
      { T := .num 300, occ := .num 1, ne := .num 1, tol := .num (1 / 10) }
      (Dist.energies [[⟨toLex (0, 0), .num 1, [.num (-1), .num 1]⟩]])
      (Dist.weights [[⟨toLex (0, 0), .num 1, [.num (-1), .num 1]⟩]]) = .ok outs ∧
    outs ≠ List.replicate 1 (.throw .runtimeError) ∧
    Dist.Proper [[(⟨toLex (0, 0), .num 1, [.num (-1), .num 1]⟩ : KPoint (F64 chopPlatform))]] := by
  have hp : Dist.Proper [[(⟨toLex (0, 0), .num 1, [.num (-1), .num 1]⟩ : KPoint (F64 chopPlatform))]] := by
    simp [Dist.Proper]
  refine ⟨chopPlatform_accurate, _, occupation_eq _ _ _ _ _ _ hp (.inr ?_), ?_, hp⟩
  · intro q hq k hk
    rw [List.mem_singleton] at hq
    subst hq
    rw [List.mem_singleton] at hk
    subst hk
    simp
  · have hs : globalSearch false chopStep chopStep { T := .num 300, occ := .num 1, ne := .num 1, tol := .num (1 / 10) }
        [[(⟨toLex (0, 0), .num 1, [.num (-1), .num 1]⟩ : KPoint (F64 chopPlatform))]] = .ok (lit 0) := by
      have hz : (F64.num 1 -ᶠ kSum id chopStep.fn
          (KMap.ofRange (Dist.energies [[(⟨toLex (0, 0), .num 1, [.num (-1), .num 1]⟩ : KPoint (F64 chopPlatform))]]).flatten)
          (KMap.ofRange (Dist.weights [[(⟨toLex (0, 0), .num 1, [.num (-1), .num 1]⟩ : KPoint (F64 chopPlatform))]]).flatten)
          (.num 300) (.num 1) (lit 0)) = .num 0 := by
        have l0 := chopPlatform_accurate.lit_zero
        have g1 : (.num 0 +ᶠ .num 1 : F64 chopPlatform) = .num 1 := by
          show F64.norm (0 + 1) = _
          rw [chop_norm (by norm_num; exact one_lt_huge)]
          norm_num [chop_one]
        have g2 : (.num 1 *ᶠ .num 1 : F64 chopPlatform) = .num 1 := by
          show F64.norm (1 * 1) = _
          rw [chop_norm (by norm_num; exact one_lt_huge)]
          norm_num [chop_one]
        have g3 : (.num 1 -ᶠ .num 1 : F64 chopPlatform) = .num 0 := by
          show F64.norm (1 + -1) = _
          rw [chop_norm (by norm_num)]
          norm_num [chopPlatform_accurate.zero, chop, chopPos_zero]
        have hk : kSum id chopStep.fn
          (KMap.ofRange (Dist.energies [[(⟨toLex (0, 0), .num 1, [.num (-1), .num 1]⟩ : KPoint (F64 chopPlatform))]]).flatten)
          (KMap.ofRange (Dist.weights [[(⟨toLex (0, 0), .num 1, [.num (-1), .num 1]⟩ : KPoint (F64 chopPlatform))]]).flatten)
          (.num 300) (.num 1) (lit 0)
          = lit 0 +ᶠ (.num 1 *ᶠ sumFunc chopStep.fn [.num (-1), .num 1] (lit 0) (.num 300) (.num 1)) := rfl
        rw [hk, l0, chop_count, g2, g1, g3]
      refine C02_good_start_kept _ _ _ ?_ ?_
      · rw [hz]
        show decide ((1 : ℝ) / 10 < |0|) = false
        norm_num
      · rw [hz]
        show decide (|0| < (1 : ℝ) / 10) = true
        norm_num
    rw [hs]
    simp [Dist.energies, finishRank]

end Nlcg
