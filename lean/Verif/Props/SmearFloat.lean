import Verif.Proofs.SmearFloat
import Mathlib.Analysis.Real.Pi.Bounds

/-!
# C92: the smearing functions in floating point
-/

namespace Nlcg
open Arith Spec

variable {r : Rounding}

/-- The functions evaluated in floating point are those of the exact model, evaluated with rounding: with exact
arithmetic they coincide. -/
theorem C92_same_functions (t : SmearType) : smearFl (α := ℝ) t = smearFns t := smearFl_real t

/-- **C92**, what holds without a restriction on the argument: whatever the rounding, Fermi-Dirac, Gaussian spline and
cold smearing return finite numbers, from all four functions, for every argument that is a number, infinities
included; Gauss smearing from three of them. -/
theorem C92_functions_partial (hr : RoundingOk r) (t : SmearType) (ht : t ≠ .methfesselPaxton) (x mo : F64 r)
    (hx : IsNumber x) (hmo : Within mo 1000) :
    Within ((smearFl t).fn x mo) (10 ^ 150) ∧ Within ((smearFl t).delta x mo) (10 ^ 150) ∧
    Within ((smearFl t).entropy x mo) (10 ^ 150) ∧
    (t ≠ .gauss → Within ((smearFl t).dxdelta x mo) (10 ^ 150)) := by
  cases t
  · exact ⟨fdFnF_within hr hx hmo, fdDeltaF_within hr hx hmo, fdEntropyF_within hr hx hmo,
      fun _ => fdDxdeltaF_within hr hx hmo⟩
  · exact ⟨gsFnF_within hr hx hmo, gsDeltaF_within hr hx hmo, gsEntropyF_within hr (mo := mo) hx,
      fun _ => gsDxdeltaF_within hr hx hmo⟩
  · exact ⟨gaussFnF_within hr hx hmo, gaussDeltaF_within hr hx hmo, gaussEntropyF_within hr hx hmo,
      fun h => absurd rfl h⟩
  · exact absurd rfl ht
  · exact ⟨coldFnF_within hr hx hmo, coldDeltaF_within hr hx hmo, coldEntropyF_within hr hx hmo,
      fun _ => coldDxdeltaF_within hr hx hmo⟩

/-- **C92**, what holds for all five: the functions return finite numbers for arguments up to `10 ^ 60`. -/
theorem C92_moderate_partial (hr : RoundingOk r) (t : SmearType) (x mo : F64 r) (hx : Within x (10 ^ 60))
    (hmo : Within mo 1000) :
    Within ((smearFl t).fn x mo) (10 ^ 150) ∧ Within ((smearFl t).delta x mo) (10 ^ 150) ∧
    Within ((smearFl t).entropy x mo) (10 ^ 150) ∧ Within ((smearFl t).dxdelta x mo) (10 ^ 150) := by
  by_cases ht : t = .methfesselPaxton
  · subst ht
    exact ⟨mpFnF_within hr hx hmo, mpDeltaF_within hr hx hmo, mpEntropyF_within hr hx hmo, mpDxdeltaF_within hr hx hmo⟩
  · obtain ⟨h1, h2, h3, h4⟩ := C92_functions_partial hr t ht x mo hx.number hmo
    refine ⟨h1, h2, h3, ?_⟩
    by_cases hg : t = .gauss
    · subst hg
      exact gaussDxdeltaF_within hr hx hmo
    · exact h4 hg

/-- **C92**, what holds of the occupation routine: if the chemical potential is found by the bracketing search, with
any smearing but Methfessel-Paxton, then it is a finite number, and so are all occupations on all ranks, whatever the
rounding, for all finite band energies and every positive thermal energy. -/
theorem C92_occupations_partial (hr : RoundingOk r) (ndebug : Bool) (t : SmearType) (ht : t ≠ .methfesselPaxton)
    (gauss : SmearFns (F64 r)) (p : OccParams (F64 r)) (d : Spec.Dist (F64 r)) (hd : d.Proper)
    (hne : ndebug = true ∨ ∀ q ∈ d, ∀ k ∈ q, k.energies ≠ [])
    (hfin : ∀ q ∈ d, ∀ k ∈ q, ∀ e ∈ k.energies, ∃ y, e = .num y)
    (hkT : ∃ kT, lit kB *ᶠ p.T = .num kT ∧ 0 < kT) (hocc : Within p.occ 1000) :
    ∃ outs, occupationFromMvector ndebug false gauss (smearFl t) p d.energies d.weights = .ok outs ∧
      ∀ o ∈ outs, ∀ mu fs, o = .ok (mu, fs) →
        Within mu (10 ^ 125) ∧ ∀ e ∈ fs, ∀ f ∈ e.2, Within f (10 ^ 150) := by
  refine ⟨_, occupation_eq ndebug false gauss (smearFl t) p d hd hne, ?_⟩
  intro o ho mu fs ho'
  obtain ⟨x, hx, rfl⟩ := List.mem_map.1 ho
  unfold finishRank at ho'
  cases hs : globalSearch false gauss (smearFl t) p d with
  | ok mu' =>
    rw [hs] at ho'
    cases ho'
    have hmu : Within mu (10 ^ 125) := findChemPotRun_within hr _ _ _ hs
    refine ⟨hmu, ?_⟩
    intro e he f hf
    simp only [occupy, List.mem_map] at he
    obtain ⟨e', he', rfl⟩ := he
    obtain ⟨ei, hei, rfl⟩ := List.mem_map.1 hf
    simp only [Dist.energies, List.mem_map] at hx
    obtain ⟨q, hq, rfl⟩ := hx
    obtain ⟨k, hk, rfl⟩ := List.mem_map.1 he'
    obtain ⟨y, rfl⟩ := hfin q hq k hk ei hei
    obtain ⟨m, rfl, -⟩ := hmu
    obtain ⟨kT, ekT, hpos⟩ := hkT
    rw [ekT]
    exact smearFl_fn_within hr ht (reduced_number hpos) hocc
  | _ => rw [hs] at ho'; cases ho'

/-- **C92** is false of Methfessel-Paxton smearing: where the square of the (finite) argument overflows, `delta`,
`dxdelta` and `entropy` are not numbers, whatever the occupancy. -/
theorem C92_not_methfessel_paxton (hr : RoundingOk r) (h0 : r.rnd 0 = 0) (y m : ℝ) (hy : r.huge ≤ y * y) :
    (smearFl .methfesselPaxton).delta (.num y : F64 r) (.num m) = .nan ∧
    (smearFl .methfesselPaxton).entropy (.num y : F64 r) (.num m) = .nan ∧
    (smearFl .methfesselPaxton).dxdelta (.num y : F64 r) (.num m) = .nan := by
  have hh := hr.huge
  have hpos : (0 : ℝ) < r.huge := lt_of_lt_of_le (by norm_num) hh
  have habs : ¬ |y * y| < r.huge := by rw [abs_of_nonneg (mul_self_nonneg y)]; exact not_lt.2 hy
  have e1 : ((.num y : F64 r) *ᶠ .num y) = .inf false := by
    show F64.norm (y * y) = _
    rw [F64.norm, if_neg habs, decide_eq_false (not_lt.2 (mul_self_nonneg y))]
  have e2 : (Arith.neg (.num y : F64 r) *ᶠ .num y) = .inf true := by
    show F64.norm (-y * y) = _
    have h1 : ¬ |(-y) * y| < r.huge := by rwa [neg_mul, abs_neg]
    have h2 : -y * y < 0 := by rw [neg_mul]; linarith
    rw [F64.norm, if_neg h1, decide_eq_true h2]
  have e3 : ((.num m : F64 r) *ᶠ .num 0) = .num 0 := by
    show F64.norm (m * 0) = _
    rw [mul_zero, F64.norm, abs_zero, if_pos hpos, h0]
  have hl : ∀ q : ℚ, 1 / 4 ≤ q → q ≤ 5 → ∃ l, (lit q : F64 r) = .num l ∧ 1 / 5 ≤ l ∧ (2 ≤ q → 1.5 ≤ l) := by
    intro q hq hq'
    have hq1 : (1 / 4 : ℝ) ≤ q := by
      have : ((1 / 4 : ℚ) : ℝ) ≤ q := by exact_mod_cast hq
      simpa using this
    have hq2 : (q : ℝ) ≤ 5 := by exact_mod_cast hq'
    obtain ⟨l, el, hl⟩ := lit_val hr q (by rw [abs_of_nonneg (by linarith)]; exact hq2.trans (by norm_num))
    refine ⟨l, el, ?_, fun h2 => ?_⟩
    · rw [abs_of_nonneg (by linarith : (0 : ℝ) ≤ q), abs_le] at hl
      norm_num at hl
      linarith
    · have h2' : (2 : ℝ) ≤ q := by exact_mod_cast h2
      rw [abs_of_nonneg (by linarith : (0 : ℝ) ≤ q), abs_le] at hl
      norm_num at hl ⊢
      linarith
  obtain ⟨l1, el1, h1, -⟩ := hl 1 (by norm_num) (by norm_num)
  obtain ⟨l2, el2, h2, h2'⟩ := hl 2 (by norm_num) (by norm_num)
  obtain ⟨l4, el4, h4, -⟩ := hl 4 (by norm_num) (by norm_num)
  obtain ⟨l5, el5, h5, -⟩ := hl 5 (by norm_num) (by norm_num)
  obtain ⟨lq, elq, hq, -⟩ := hl (1 / 4) (by norm_num) (by norm_num)
  have n1 : l1 ≠ 0 := by intro h; norm_num [h] at h1
  have n2 : l2 ≠ 0 := by intro h; norm_num [h] at h2
  have n4 : l4 ≠ 0 := by intro h; norm_num [h] at h4
  have nq : lq ≠ 0 := by intro h; norm_num [h] at hq
  have mulinf : ∀ (a : ℝ) (s : Bool), a ≠ 0 → ∃ s', ((.num a : F64 r) *ᶠ .inf s) = .inf s' := fun a s ha =>
    ⟨_, if_neg ha⟩
  have zeroinf : ∀ s : Bool, ((.num 0 : F64 r) *ᶠ .inf s) = .nan := fun s => if_pos rfl
  have ediv : ∀ a : F64 r, ((.nan : F64 r) /ᶠ a) = .nan := by intro a; rcases a with _ | _ | _ <;> rfl
  have e4 : Libm.exp (.inf true : F64 r) = .num 0 := rfl
  refine ⟨?_, ?_, ?_⟩
  · show mpDeltaF _ _ = _
    simp only [mpDeltaF, e1]
    obtain ⟨s1, es1⟩ := mulinf l4 false n4
    obtain ⟨s2, es2⟩ := mulinf lq (!s1) nq
    have g1 : ((.num l2 : F64 r) -ᶠ .inf s1) = .inf !s1 := rfl
    have g2 : ((.num l1 : F64 r) +ᶠ .inf s2) = .inf s2 := rfl
    have g3 : Arith.neg (.inf false : F64 r) = .inf true := rfl
    rw [el1, el2, el4, elq, g3, e4, e3, es1, g1, es2, g2, zeroinf, ediv]
  · show mpEntropyF _ _ = _
    simp only [mpEntropyF, e1]
    obtain ⟨s1, es1⟩ := mulinf l2 false n2
    have g1 : ((.num l1 : F64 r) -ᶠ .inf s1) = .inf !s1 := rfl
    have g3 : Arith.neg (.inf false : F64 r) = .inf true := rfl
    rw [el1, el2, g3, e4, e3, es1, g1, zeroinf, ediv, ediv]
  · show mpDxdeltaF _ _ = _
    simp only [mpDxdeltaF, e2]
    have hy1 : 1 ≤ |y| := by
      by_contra hc
      have hc' : |y| < 1 := not_le.1 hc
      have : y * y < 1 := by rw [← abs_mul_abs_self]; nlinarith [abs_nonneg y]
      have h10 : (1 : ℝ) ≤ 10 ^ 200 := by norm_num
      linarith
    have g : ∃ s, ((.num l2 : F64 r) *ᶠ .num y *ᶠ .num y) = .inf s := by
      show ∃ s, F64.mul (F64.norm (l2 * y)) (.num y) = _
      unfold F64.norm
      split_ifs with hc
      · have hz := hr.rnd (l2 * y)
        set z := r.rnd (l2 * y)
        have hz1 : |y| ≤ |z| := by
          have h6 := abs_sub_abs_le_abs_sub (l2 * y) z
          rw [abs_sub_comm] at h6
          have h7 : |l2 * y| = l2 * |y| := by rw [abs_mul, abs_of_pos (by linarith)]
          have h8 := h2' (by norm_num)
          rw [h7] at h6 hz
          norm_num at hz h8
          nlinarith
        have : ¬ |z * y| < r.huge := by
          rw [abs_mul, not_lt]
          refine hy.trans ?_
          rw [← abs_mul_abs_self y]
          exact mul_le_mul_of_nonneg_right hz1 (abs_nonneg y)
        exact ⟨_, if_neg this⟩
      · have : y ≠ 0 := by intro h; norm_num [h] at hy1
        exact ⟨_, if_neg this⟩
    obtain ⟨s, es⟩ := g
    have g1 : ((.inf s : F64 r) -ᶠ .num l5) = .inf s := rfl
    rw [el2, el5, e4, e3, es, g1, zeroinf, ediv]

/-- **C92** is false at infinity of the occupation for Methfessel-Paxton, and of `dxdelta` for Gauss smearing. -/
theorem C92_not_at_infinity (hr : RoundingOk r) (h0 : r.rnd 0 = 0) (s : Bool) (m : ℝ) :
    (smearFl .methfesselPaxton).fn (.inf s : F64 r) (.num m) = .nan ∧
    (smearFl .gauss).dxdelta (.inf s : F64 r) (.num m) = .nan := by
  have zeroinf : ((.num 0 : F64 r) *ᶠ .inf s) = .nan := if_pos rfl
  have ediv : ∀ a : F64 r, ((.nan : F64 r) /ᶠ a) = .nan := by intro a; rcases a with _ | _ | _ <;> rfl
  have eadd : ∀ a : F64 r, ((.nan : F64 r) +ᶠ a) = .nan := by intro a; rcases a with _ | _ | _ <;> rfl
  have eadd' : ∀ a : F64 r, (a +ᶠ (.nan : F64 r)) = .nan := by intro a; rcases a with _ | _ | _ <;> rfl
  have emul' : ∀ a : F64 r, (a *ᶠ (.nan : F64 r)) = .nan := by intro a; rcases a with _ | _ | _ <;> rfl
  refine ⟨?_, ?_⟩
  · show mpFnF _ _ = _
    have e1 : ((.inf s : F64 r) *ᶠ .inf s) = .inf false := by cases s <;> rfl
    have e2 : Libm.exp (Arith.neg (.inf false : F64 r)) = .num 0 := rfl
    simp only [mpFnF, e1]
    rw [e2, zeroinf, ediv, eadd', eadd, emul']
  · show gaussDxdeltaF _ _ = _
    have e1 : Libm.exp (Arith.neg (.inf s : F64 r) *ᶠ .inf s) = .num 0 := by cases s <;> rfl
    have hh := hr.huge
    have hpos : (0 : ℝ) < r.huge := lt_of_lt_of_le (by norm_num) hh
    rw [gaussDxdeltaF, e1]
    have e2 : ∃ v, ((lit (-2) : F64 r) *ᶠ .num m *ᶠ .num 0) = v ∧ (v = .num 0 ∨ v = .nan) := by
      refine ⟨_, rfl, ?_⟩
      have : ∀ a : F64 r, (a *ᶠ .num 0) = .num 0 ∨ (a *ᶠ .num 0) = (.nan : F64 r) := by
        intro a
        rcases a with a | b | _
        · left
          show F64.norm (a * 0) = _
          rw [mul_zero, F64.norm, abs_zero, if_pos hpos, h0]
        · right
          exact if_pos rfl
        · right
          rfl
      exact this _
    obtain ⟨v, ev, rfl | rfl⟩ := e2
    · rw [ev, zeroinf, ediv]
    · rw [ev]
      rfl

/-- a platform without rounding errors, on which numbers from `10 ^ 200` on overflow -/
noncomputable def exactPlatform : Rounding where
  rnd := id
  huge := 10 ^ 200
  exp := Real.exp
  log := Real.log
  sqrt := Real.sqrt
  erf := erf
  erfc := erfc
  pi := Real.pi

theorem exactPlatform_ok : RoundingOk exactPlatform where
  huge := le_refl _
  rnd x := by
    simp only [exactPlatform, id, sub_self, abs_zero]
    positivity
  exp x := by
    simp only [exactPlatform, sub_self, abs_zero]
    positivity
  log x _ := by
    simp only [exactPlatform, sub_self, abs_zero]
    positivity
  sqrt x _ := by
    simp only [exactPlatform, sub_self, abs_zero]
    positivity
  erf x := abs_le.2 ⟨(neg_one_lt_erf x).le, (erf_lt_one x).le⟩
  erfc x := ⟨(erfc_pos x).le, by
    show erfc x ≤ 2
    unfold erfc
    linarith [neg_one_lt_erf x]⟩
  pi := ⟨le_of_lt Real.pi_gt_three, Real.pi_le_four⟩

/-- one k-point with one level of energy -1 -/
def coldKPoint : Spec.Dist (F64 exactPlatform) := [[⟨toLex (0, 0), .num 1, [.num (-1)]⟩]]

/-- two electrons at a thermal energy of `10 ^ (-201)` -/
noncomputable def coldParams : OccParams (F64 exactPlatform) where
  T := .num (1 / 10 ^ 201 / (kB : ℝ))
  occ := .num 2
  ne := .num 2
  tol := .num (1 / 1000)

/-- **C92** is false of the Newton search: a chemical potential that is not a number is accepted, the occupations are
not numbers. All inputs are finite and the temperature is positive; `w / kT` overflows. -/
theorem C92_not_newton : occupationFromMvector false true (smearFl .gauss) (smearFl .cold) coldParams
    coldKPoint.energies coldKPoint.weights = .ok [.ok (.nan, [(toLex (0, 0), [.nan])])] := by
  have norm_eq : ∀ x : ℝ, |x| < 10 ^ 200 → (F64.norm x : F64 exactPlatform) = .num x := fun x h => if_pos h
  have lit_eq : ∀ q : ℚ, |(q : ℝ)| < 10 ^ 200 → (lit q : F64 exactPlatform) = .num q := fun q h => norm_eq _ h
  have eadd : ∀ a : F64 exactPlatform, (.nan +ᶠ a) = .nan := by intro a; rcases a with _ | _ | _ <;> rfl
  have eadd' : ∀ a : F64 exactPlatform, (a +ᶠ .nan) = .nan := by intro a; rcases a with _ | _ | _ <;> rfl
  have esub : ∀ a : F64 exactPlatform, (.nan -ᶠ a) = .nan := by intro a; rcases a with _ | _ | _ <;> rfl
  have esub' : ∀ a : F64 exactPlatform, (a -ᶠ .nan) = .nan := by intro a; rcases a with _ | _ | _ <;> rfl
  have emul : ∀ a : F64 exactPlatform, (.nan *ᶠ a) = .nan := by intro a; rcases a with _ | _ | _ <;> rfl
  have emul' : ∀ a : F64 exactPlatform, (a *ᶠ .nan) = .nan := by intro a; rcases a with _ | _ | _ <;> rfl
  have ediv : ∀ a : F64 exactPlatform, (.nan /ᶠ a) = .nan := by intro a; rcases a with _ | _ | _ <;> rfl
  have ediv' : ∀ a : F64 exactPlatform, (a /ᶠ .nan) = .nan := by intro a; rcases a with _ | _ | _ <;> rfl
  have elt : ∀ a : F64 exactPlatform, (.nan <ᶠ a) = false := by intro a; rcases a with _ | (_ | _) | _ <;> rfl
  have elt' : ∀ a : F64 exactPlatform, (a <ᶠ .nan) = false := by intro a; rcases a with _ | (_ | _) | _ <;> rfl
  have l0 : (lit 0 : F64 exactPlatform) = .num 0 := by rw [lit_eq _ (by norm_num)]; norm_num
  have l1 : (lit 1 : F64 exactPlatform) = .num 1 := by rw [lit_eq _ (by norm_num)]; norm_num
  have l2 : (lit 2 : F64 exactPlatform) = .num 2 := by rw [lit_eq _ (by norm_num)]; norm_num
  have l8 : (lit 8 : F64 exactPlatform) = .num 8 := by rw [lit_eq _ (by norm_num)]; norm_num
  have l10 : (lit 10 : F64 exactPlatform) = .num 10 := by rw [lit_eq _ (by norm_num)]; norm_num
  have l8' : (lit (-8) : F64 exactPlatform) = .num (-8) := by rw [lit_eq _ (by norm_num)]; norm_num
  have l1' : (lit (-1) : F64 exactPlatform) = .num (-1) := by rw [lit_eq _ (by norm_num)]; norm_num
  have add_eq : ∀ a b : ℝ, |a + b| < 10 ^ 200 → ((.num a : F64 exactPlatform) +ᶠ .num b) = .num (a + b) := fun a b h =>
    norm_eq _ h
  have sub_eq : ∀ a b : ℝ, |a - b| < 10 ^ 200 → ((.num a : F64 exactPlatform) -ᶠ .num b) = .num (a - b) := fun a b h => by
    rw [sub_eq_add_neg] at h ⊢
    exact norm_eq _ h
  have mul_eq : ∀ a b : ℝ, |a * b| < 10 ^ 200 → ((.num a : F64 exactPlatform) *ᶠ .num b) = .num (a * b) := fun a b h =>
    norm_eq _ h
  -- the thermal energy
  have hkB : (kB : ℝ) ≠ 0 := by norm_num [kB]
  have hkT : (lit kB *ᶠ coldParams.T : F64 exactPlatform) = .num (1 / 10 ^ 201) := by
    rw [lit_eq _ (by norm_num [kB])]
    show (F64.norm ((kB : ℝ) * (1 / 10 ^ 201 / (kB : ℝ))) : F64 exactPlatform) = _
    rw [mul_div_cancel₀ _ hkB, norm_eq _ (by norm_num)]
  have hinv : ((.num 1 : F64 exactPlatform) /ᶠ .num (1 / 10 ^ 201)) = .inf false := by
    show (if (1 / 10 ^ 201 : ℝ) = 0 then _ else (F64.norm (1 / (1 / 10 ^ 201)) : F64 exactPlatform)) = _
    rw [if_neg (by norm_num), F64.norm, if_neg (by norm_num [exactPlatform]), decide_eq_false (by norm_num)]
  have hinv2 : ((.num 1 : F64 exactPlatform) /ᶠ (.num (1 / 10 ^ 201) *ᶠ .num (1 / 10 ^ 201))) = .inf false := by
    rw [mul_eq _ _ (by norm_num)]
    show (if (1 / 10 ^ 201 * (1 / 10 ^ 201) : ℝ) = 0 then _ else
      (F64.norm (1 / (1 / 10 ^ 201 * (1 / 10 ^ 201))) : F64 exactPlatform)) = _
    rw [if_neg (by norm_num), F64.norm, if_neg (by norm_num [exactPlatform]), decide_eq_false (by norm_num)]
  -- one level
  have hsum : ∀ (func : F64 exactPlatform → F64 exactPlatform → F64 exactPlatform) (mu : F64 exactPlatform),
      sumFunc func [.num (-1)] mu coldParams.T coldParams.occ =
        .num 0 +ᶠ func ((.num (-1) *ᶠ (.num (-1) -ᶠ mu)) /ᶠ .num (1 / 10 ^ 201)) (.num 2) := by
    intro func mu
    simp only [sumFunc, List.foldl_cons, List.foldl_nil, hkT, l0, l1']
    rfl
  have hk : ∀ (g : F64 exactPlatform → F64 exactPlatform) (func : F64 exactPlatform → F64 exactPlatform → F64 exactPlatform)
      (mu : F64 exactPlatform), kSum g func (KMap.ofRange coldKPoint.energies.flatten)
        (KMap.ofRange coldKPoint.weights.flatten) coldParams.T coldParams.occ mu =
        .num 0 +ᶠ (g (.num 1) *ᶠ sumFunc func [.num (-1)] mu coldParams.T coldParams.occ) := by
    intro g func mu
    simp only [kSum, ← l0]
    rfl
  have hx0 : ((.num (-1) *ᶠ (.num (-1) -ᶠ .num 0)) /ᶠ .num (1 / 10 ^ 201) : F64 exactPlatform) = .inf false := by
    rw [sub_eq _ _ (by norm_num), mul_eq _ _ (by norm_num)]
    norm_num at hinv ⊢
    exact hinv
  have hgauss : gaussFnF (.inf false : F64 exactPlatform) (.num 2) = .num 2 := by
    have h1 : ((.num 2 : F64 exactPlatform) /ᶠ .num 2) = .num 1 := by
      show (if (2 : ℝ) = 0 then _ else (F64.norm (2 / 2) : F64 exactPlatform)) = _
      rw [if_neg (by norm_num), norm_eq _ (by norm_num)]
      norm_num
    have h2 : Libm.erf (.inf false : F64 exactPlatform) = .num 1 := rfl
    rw [gaussFnF, l1, l2, h1, h2, add_eq _ _ (by norm_num), mul_eq _ _ (by norm_num)]
    norm_num
  have hcold : coldFnF (.inf false : F64 exactPlatform) (.num 2) = .num 2 := by
    rw [coldFnF, l8]
    exact if_pos rfl
  have hdelta : coldDeltaF (.inf false : F64 exactPlatform) (.num 2) = .num 0 := by
    rw [coldDeltaF, l8', l10, l0]
    rfl
  have hdxdelta : coldDxdeltaF (.inf false : F64 exactPlatform) (.num 2) = .num 0 := by
    rw [coldDxdeltaF, l8', l10, l0]
    rfl
  have hnan : coldFnF (.nan : F64 exactPlatform) (.num 2) = .nan := by
    simp only [coldFnF, elt, elt', Bool.false_eq_true, if_false, esub', emul', eadd']
    have h1 : Libm.exp (.nan : F64 exactPlatform) = .nan := rfl
    rw [h1, ediv, ediv, eadd, emul']
  have one2 : (.num 0 +ᶠ (.num 1 *ᶠ (.num 0 +ᶠ .num 2)) : F64 exactPlatform) = .num 2 := by
    rw [add_eq _ _ (by norm_num), mul_eq _ _ (by norm_num), add_eq _ _ (by norm_num)]
    norm_num
  have z0 : (.num 2 -ᶠ .num 2 : F64 exactPlatform) = .num 0 := by
    rw [sub_eq _ _ (by norm_num)]
    norm_num
  have inf0 : (.inf false *ᶠ (.num 0 +ᶠ .num 0) : F64 exactPlatform) = .nan := by
    rw [add_eq _ _ (by norm_num), add_zero]
    exact if_pos rfl
  have hNg : kSum id gaussFnF (KMap.ofRange coldKPoint.energies.flatten) (KMap.ofRange coldKPoint.weights.flatten)
      coldParams.T coldParams.occ (.num 0) = .num 2 := by rw [hk, hsum, hx0, hgauss, id, one2]
  have hN0 : kSum id coldFnF (KMap.ofRange coldKPoint.energies.flatten) (KMap.ofRange coldKPoint.weights.flatten)
      coldParams.T coldParams.occ (.num 0) = .num 2 := by rw [hk, hsum, hx0, hcold, id, one2]
  have hNn : kSum id coldFnF (KMap.ofRange coldKPoint.energies.flatten) (KMap.ofRange coldKPoint.weights.flatten)
      coldParams.T coldParams.occ .nan = .nan := by
    rw [hk, hsum, esub', emul', ediv, hnan, eadd', emul', eadd']
  have hdN : kSum (· /ᶠ .num (1 / 10 ^ 201)) coldDeltaF (KMap.ofRange coldKPoint.energies.flatten)
      (KMap.ofRange coldKPoint.weights.flatten) coldParams.T coldParams.occ (.num 0) = .nan := by
    rw [hk, hsum, hx0, hdelta, hinv, inf0, eadd']
  have hddN : kSum (· /ᶠ (.num (1 / 10 ^ 201) *ᶠ .num (1 / 10 ^ 201))) coldDxdeltaF
      (KMap.ofRange coldKPoint.energies.flatten)
      (KMap.ofRange coldKPoint.weights.flatten) coldParams.T coldParams.occ (.num 0) = .nan := by
    rw [hk, hsum, hx0, hdxdelta, hinv2, inf0, eadd']
  have hne : coldParams.ne = .num 2 := rfl
  have htol : coldParams.tol = .num (1 / 1000) := rfl
  have abs0 : Arith.abs (.num 0 : F64 exactPlatform) = .num 0 := congrArg F64.num abs_zero
  have absn : Arith.abs (.nan : F64 exactPlatform) = .nan := rfl
  have lt0 : ((.num 0 : F64 exactPlatform) <ᶠ .num (1 / 1000)) = true := decide_eq_true (by norm_num)
  have lt1 : ((.num (1 / 1000) : F64 exactPlatform) <ᶠ .num 0) = false := decide_eq_false (by norm_num)
  -- the start value
  have hstart : findChemPotRun (fun mu => coldParams.ne -ᶠ kSum id gaussFnF (KMap.ofRange coldKPoint.energies.flatten)
      (KMap.ofRange coldKPoint.weights.flatten) coldParams.T coldParams.occ mu) (lit 0) coldParams.tol =
      .ok (.num 0) := by
    have hg : cpGuard (fun mu => coldParams.ne -ᶠ kSum id gaussFnF (KMap.ofRange coldKPoint.energies.flatten)
        (KMap.ofRange coldKPoint.weights.flatten) coldParams.T coldParams.occ mu) coldParams.tol
        (cpInit (.num 0)) = false := by
      simp only [cpGuard, cpInit, hNg, hne, z0, abs0, htol, lt1, Bool.false_and]
    rw [l0, findChemPotRun, findChemPot, whileFuel, hg]
    simp only [Bool.false_eq_true, if_false, Option.map_some, cpFinish]
    simp only [cpInit, hNg, hne, z0, abs0, htol, lt0, if_true]
  -- the Newton iteration
  have hnewton : newtonRun (fun mu => kSum id coldFnF (KMap.ofRange coldKPoint.energies.flatten)
      (KMap.ofRange coldKPoint.weights.flatten) coldParams.T coldParams.occ mu)
      (fun mu => kSum (· /ᶠ .num (1 / 10 ^ 201)) coldDeltaF (KMap.ofRange coldKPoint.energies.flatten)
        (KMap.ofRange coldKPoint.weights.flatten) coldParams.T coldParams.occ mu)
      (fun mu => kSum (· /ᶠ (.num (1 / 10 ^ 201) *ᶠ .num (1 / 10 ^ 201))) coldDxdeltaF
        (KMap.ofRange coldKPoint.energies.flatten)
        (KMap.ofRange coldKPoint.weights.flatten) coldParams.T coldParams.occ mu) (.num 0) coldParams.ne coldParams.tol =
      .ok .nan := by
    simp only [newtonRun, newton, newtonLoop, newtonBody, hN0, hdN, hddN, hne, z0, htol, emul', emul, eadd, eadd', absn,
      elt, elt', ediv, esub', esub, hNn, abs0, lt0, Bool.false_or, if_true, Bool.false_eq_true, if_false]
  rw [occupation_eq false true _ _ _ _ (by simp [coldKPoint, Spec.Dist.Proper]) (Or.inr (by
    intro q hq k hk'
    simp only [coldKPoint, List.mem_singleton] at hq
    subst hq
    simp only [List.mem_singleton] at hk'
    subst hk'
    simp))]
  have gen : ∀ (fG N dN ddN : F64 exactPlatform → F64 exactPlatform) (ne tol mu0 v : F64 exactPlatform),
      findChemPotRun fG (lit 0) tol = .ok mu0 → newtonRun N dN ddN mu0 ne tol = .ok v →
      chemPotNewton fG N dN ddN ne tol = .ok v := by
    intro fG N dN ddN ne tol mu0 v h1 h2
    simp [chemPotNewton, h1, h2]
  have hsearch : globalSearch true (smearFl .gauss) (smearFl .cold) coldParams coldKPoint = .ok .nan := by
    simp only [globalSearch, if_true, chemPotGatheredNewton, hkT]
    exact gen _ _ _ _ _ _ _ _ hstart hnewton
  rw [hsearch, hkT]
  show Res.ok [Res.ok (F64.nan, [(toLex (0, 0), 
    [coldFnF (((.nan : F64 exactPlatform) -ᶠ .num (-1)) /ᶠ .num (1 / 10 ^ 201)) (.num 2)])])] = _
  rw [esub, ediv, hnan]

/-- the hypotheses of `C92_occupations_partial` are met on a platform without rounding errors by two levels at room
temperature -/
example : RoundingOk exactPlatform ∧ (∃ kT, (lit kB *ᶠ (.num 300) : F64 exactPlatform) = .num kT ∧ 0 < kT) ∧
    Within (.num 2 : F64 exactPlatform) 1000 ∧
    Spec.Dist.Proper ([[⟨toLex (0, 0), .num 1, [.num (-1), .num 1]⟩]] : Spec.Dist (F64 exactPlatform)) := by
  refine ⟨exactPlatform_ok, ⟨(kB : ℝ) * 300, ?_, by norm_num [kB]⟩, ⟨2, rfl, by norm_num⟩, by simp [Spec.Dist.Proper]⟩
  have h1 : |((kB : ℚ) : ℝ)| < exactPlatform.huge := by norm_num [kB, exactPlatform]
  have h2 : |((kB : ℚ) : ℝ) * 300| < exactPlatform.huge := by norm_num [kB, exactPlatform]
  show F64.mul (F64.norm _) _ = _
  rw [F64.norm, if_pos h1]
  exact if_pos h2

/-- the hypothesis of `C92_not_methfessel_paxton` -/
example : exactPlatform.huge ≤ (10 : ℝ) ^ 100 * 10 ^ 100 ∧ exactPlatform.rnd 0 = 0 := by
  constructor
  · norm_num [exactPlatform]
  · rfl

end Nlcg
