import Verif.Proofs.InsulatorRef
import Verif.Props.Smearing

/-! Band energies for which an arbitrarily small shift changes the occupations. -/

namespace Nlcg
open Spec Real Arith Set

/-- the smearing function where it exceeds the occupancy and where it is not positive -/
structure Drops (sf : SmearFns ℝ) (y : ℝ) : Prop where
  over : StrictAntiOn (fun x => sf.fn x 2) (Icc 2 (5 / 2))
  overCont : ContinuousOn (fun x => sf.fn x 2) (Icc 2 (5 / 2))
  drop : sf.fn (5 / 2) 2 ≤ sf.fn 2 2 - 1 / 10000
  under : AntitoneOn (fun x => sf.fn x 2) (Icc (-y) (-y + 1 / 2))
  underCont : ContinuousOn (fun x => sf.fn x 2) (Icc (-y) (-y + 1 / 2))
  far : AntitoneOn (fun x => sf.fn x 2) (Iic (-100))
  farCont : ContinuousOn (fun x => sf.fn x 2) (Iic (-100))
  high : ∀ x, 100 ≤ x → |sf.fn x 2 - 2| ≤ 1 / 10 ^ 20

theorem exp_neg_seven : (1 : ℝ) / 1200 ≤ exp (-7) := by
  rw [exp_neg, one_div]
  refine inv_anti₀ (exp_pos _) ?_
  have h3 : exp 7 = exp 1 ^ 7 := by rw [← exp_nat_mul]; norm_num
  rw [h3]
  calc exp 1 ^ 7 ≤ 2.72 ^ 7 := pow_le_pow_left₀ (exp_pos 1).le (by linarith [exp_one_lt_d9]) 7
    _ ≤ 1200 := by norm_num

/-- a function with a derivative of at most `-m` -/
theorem drops_by {f f' : ℝ → ℝ} {a b m : ℝ} (hab : a ≤ b) (hd : ∀ x ∈ Icc a b, HasDerivAt f (f' x) x)
    (hm : ∀ x ∈ Icc a b, f' x ≤ -m) : f b ≤ f a - m * (b - a) := by
  have := (convex_Icc a b).image_sub_le_mul_sub_of_deriv_le (f := f) (C := -m)
    (fun x hx => (hd x hx).continuousAt.continuousWithinAt)
    (fun x hx => (hd x (interior_subset hx)).differentiableAt.differentiableWithinAt)
    (fun x hx => by rw [(hd x (interior_subset hx)).deriv]; exact hm x (interior_subset hx))
    a (left_mem_Icc.2 hab) b (right_mem_Icc.2 hab) hab
  linarith

theorem strictAnti_of {f f' : ℝ → ℝ} {s : Set ℝ} (hs : Convex ℝ s) (hd : ∀ x ∈ s, HasDerivAt f (f' x) x)
    (hn : ∀ x ∈ s, f' x < 0) : StrictAntiOn f s :=
  strictAntiOn_of_deriv_neg hs (fun x hx => (hd x hx).continuousAt.continuousWithinAt)
    fun x hx => by rw [(hd x (interior_subset hx)).deriv]; exact hn x (interior_subset hx)

theorem cold_drops : Drops (smearFns .cold) 9 := by
  have hd : ∀ x ∈ Icc (2 : ℝ) (5 / 2), HasDerivAt (fun y => (smearFns .cold).fn y 2) ((smearFns .cold).delta x 2) x :=
    fun x hx => C08_delta_is_derivative .cold 2 x ⟨by linarith [hx.1], by linarith [hx.2]⟩
  have hm : ∀ x ∈ Icc (2 : ℝ) (5 / 2), (smearFns .cold).delta x 2 ≤ -(1 / 5000) := by
    intro x hx
    show coldDelta x 2 ≤ _
    rw [coldDelta, if_neg (by linarith [hx.1]), if_neg (by linarith [hx.2])]
    have hs1 : 1.4 ≤ √(2 : ℝ) := by rw [le_sqrt' (by norm_num)]; norm_num
    have hs2 : √(2 : ℝ) ≤ 1.5 := by rw [sqrt_le_left (by norm_num)]; norm_num
    have hs0 : 0 < √(2 : ℝ) := by positivity
    have hinv : 1 / √(2 : ℝ) = √2 / 2 := by have := sqrt2_sq; field_simp; linarith
    simp only [hinv]
    have hz : exp (-7) ≤ exp (-(x - √2 / 2) * (x - √2 / 2)) := by
      refine exp_le_exp.2 ?_
      have h1 : 0 ≤ x - √2 / 2 := by linarith [hx.1]
      have h2 : x - √2 / 2 ≤ 2 := by linarith [hx.2]
      nlinarith
    have he := exp_neg_seven.trans hz
    have hp := sqrtpi_pos
    have hp2 := sqrtpi_le_two
    rw [div_le_iff₀ hp]
    have h3 : 2 - √2 * x ≤ -0.8 := by nlinarith [hx.1]
    generalize exp (-(x - √2 / 2) * (x - √2 / 2)) = e at *
    have : 2 * e * (2 - √2 * x) ≤ 2 * e * (-0.8) := mul_le_mul_of_nonneg_left h3 (by linarith)
    norm_num at this ⊢
    nlinarith
  have hlow : ∀ x : ℝ, x < -8 → (smearFns .cold).fn x 2 = 0 := by
    intro x hx
    show coldFn x 2 = 0
    rw [coldFn, if_neg (by linarith), if_pos hx]
  have hcl : ∀ s : Set ℝ, (∀ x ∈ s, x < -8) → AntitoneOn (fun x => (smearFns .cold).fn x 2) s ∧
      ContinuousOn (fun x => (smearFns .cold).fn x 2) s := by
    intro s hs
    refine ⟨fun a ha b hb _ => ?_, ?_⟩
    · simp only [hlow a (hs a ha), hlow b (hs b hb), le_refl]
    · refine (continuousOn_const (c := (0 : ℝ))).congr fun x hx => hlow x (hs x hx)
  refine ⟨strictAnti_of (convex_Icc _ _) hd fun x hx => (hm x hx).trans_lt (by norm_num),
    fun x hx => (hd x hx).continuousAt.continuousWithinAt, ?_, ?_, ?_, ?_, ?_, ?_⟩
  · have := drops_by (by norm_num) hd hm
    norm_num at this ⊢
    linarith
  · exact (hcl _ fun x hx => by have := hx.2; norm_num at this; linarith).1
  · exact (hcl _ fun x hx => by have := hx.2; norm_num at this; linarith).2
  · exact (hcl _ fun x hx => by have := mem_Iic.1 hx; linarith).1
  · exact (hcl _ fun x hx => by have := mem_Iic.1 hx; linarith).2
  · intro x hx
    show |coldFn x 2 - 2| ≤ _
    rw [coldFn, if_pos (by linarith)]
    norm_num

theorem mp_drops : Drops (smearFns .methfesselPaxton) 2 := by
  have hd : ∀ x : ℝ, HasDerivAt (fun y => (smearFns .methfesselPaxton).fn y 2) ((smearFns .methfesselPaxton).delta x 2) x :=
    fun x => C08_delta_is_derivative .methfesselPaxton 2 x (mem_univ _)
  have hval : ∀ x : ℝ, (smearFns .methfesselPaxton).delta x 2 = 2 * exp (-(x * x)) * (3 / 2 - x * x) / √π := by
    intro x
    show mpDelta x 2 = _
    rw [mpDelta]
    norm_num
    ring_nf
  have hneg : ∀ x : ℝ, 3 / 2 < x * x → (smearFns .methfesselPaxton).delta x 2 < 0 := by
    intro x hx
    rw [hval]
    have := sqrtpi_pos
    refine div_neg_of_neg_of_pos (mul_neg_of_pos_of_neg (by positivity) (by linarith)) this
  have hcont : Continuous fun y => (smearFns .methfesselPaxton).fn y 2 :=
    continuous_iff_continuousAt.2 fun x => (hd x).continuousAt
  have hm : ∀ x ∈ Icc (2 : ℝ) (5 / 2), (smearFns .methfesselPaxton).delta x 2 ≤ -(1 / 5000) := by
    intro x hx
    rw [hval]
    have hz : exp (-7) ≤ exp (-(x * x)) := exp_le_exp.2 (by nlinarith [hx.1, hx.2])
    have he := exp_neg_seven.trans hz
    have hp := sqrtpi_pos
    have hp2 := sqrtpi_le_two
    rw [div_le_iff₀ hp]
    have h3 : 3 / 2 - x * x ≤ -(5 / 2) := by nlinarith [hx.1]
    generalize exp (-(x * x)) = e at *
    have : 2 * e * (3 / 2 - x * x) ≤ 2 * e * (-(5 / 2)) := mul_le_mul_of_nonneg_left h3 (by linarith)
    nlinarith
  refine ⟨strictAnti_of (convex_Icc _ _) (fun x _ => hd x) fun x hx => hneg x (by nlinarith [hx.1]),
    hcont.continuousOn, ?_, (strictAnti_of (convex_Icc _ _) (fun x _ => hd x) fun x hx => hneg x ?_).antitoneOn,
    hcont.continuousOn, (strictAnti_of (convex_Iic _) (fun x _ => hd x) fun x hx => hneg x ?_).antitoneOn,
    hcont.continuousOn, fun x hx => mp_far hx⟩
  · have := drops_by (by norm_num) (fun x _ => hd x) hm
    norm_num at this ⊢
    linarith
  · have := hx.2
    norm_num at this
    nlinarith
  · have := mem_Iic.1 hx
    nlinarith

variable {sf : SmearFns ℝ} {y E : ℝ}

/-- the count at chemical potential zero if all bands are lower by `c` -/
noncomputable def wideCount (sf : SmearFns ℝ) (y E c : ℝ) : ℝ :=
  wideWeights sf y E 0 * (sf.fn (1000 * c + 2) 2 + sf.fn (1000 * (c - E)) 2)
    + wideWeights sf y E 1 * (sf.fn (1000 * c - y) 2 + sf.fn (1000 * (c - E)) 2)

theorem wideCount_zero (h : Overfills sf y) (hE : 1 ≤ E) : wideCount sf y E 0 = 2 := by
  rw [wideCount, show (1000 : ℝ) * 0 + 2 = 2 by ring, show 1000 * (0 - E) = -(1000 * E) by ring,
    show (1000 : ℝ) * 0 - y = -y by ring]
  exact (wideWeights_ok h hE).2.2.2

theorem wideWeights_eighth (h : Overfills sf y) (hE : 1 ≤ E) : 1 / 8 ≤ wideWeights sf y E 0 := by
  have h1 := abs_le.1 (h.fnLow (-(1000 * E)) (by linarith))
  obtain ⟨h2, h3⟩ := h.above
  obtain ⟨h4, h5⟩ := h.below
  have e : (1 : ℝ) / 10 ^ 20 ≤ 1 / 1000 := by norm_num
  have hD : 0 < sf.fn 2 2 - sf.fn (-y) 2 := by linarith
  simp only [wideWeights, Matrix.cons_val_zero]
  rw [le_div_iff₀ hD]
  linarith [h1.2]

theorem wideCount_anti (h : Overfills sf y) (hd : Drops sf y) (hE : 1 ≤ E) :
    StrictAntiOn (wideCount sf y E) (Icc 0 (1 / 2000)) := by
  obtain ⟨hw0, hw1, hw, -⟩ := wideWeights_ok h hE
  intro a ha b hb hab
  simp only [wideCount]
  have h1 : sf.fn (1000 * b + 2) 2 < sf.fn (1000 * a + 2) 2 :=
    hd.over (a := 1000 * a + 2) (b := 1000 * b + 2) ⟨by linarith [ha.1], by linarith [ha.2]⟩
      ⟨by linarith [hb.1], by linarith [hb.2]⟩ (by linarith)
  have h2 : sf.fn (1000 * b - y) 2 ≤ sf.fn (1000 * a - y) 2 :=
    hd.under (a := 1000 * a - y) (b := 1000 * b - y) ⟨by linarith [ha.1], by linarith [ha.2]⟩
      ⟨by linarith [hb.1], by linarith [hb.2]⟩ (by linarith)
  have h3 : sf.fn (1000 * (b - E)) 2 ≤ sf.fn (1000 * (a - E)) 2 :=
    hd.far (a := 1000 * (a - E)) (b := 1000 * (b - E)) (mem_Iic.2 (by linarith [ha.2])) (mem_Iic.2 (by linarith [hb.2]))
      (by linarith)
  have e1 := mul_lt_mul_of_pos_left (add_lt_add_of_lt_of_le h1 h3) hw0
  have e2 := mul_le_mul_of_nonneg_left (add_le_add h2 h3) (by linarith : 0 ≤ wideWeights sf y E 1)
  linarith

theorem wideCount_cont (hd : Drops sf y) (hE : 1 ≤ E) :
    ContinuousOn (wideCount sf y E) (Icc 0 (1 / 2000)) := by
  have c1 : ContinuousOn (fun c => sf.fn (1000 * c + 2) 2) (Icc 0 (1 / 2000)) :=
    hd.overCont.comp (f := fun c => 1000 * c + 2) (by fun_prop) fun c hc => ⟨by linarith [hc.1], by linarith [hc.2]⟩
  have c2 : ContinuousOn (fun c => sf.fn (1000 * c - y) 2) (Icc 0 (1 / 2000)) :=
    hd.underCont.comp (f := fun c => 1000 * c - y) (by fun_prop) fun c hc => ⟨by linarith [hc.1], by linarith [hc.2]⟩
  have c3 : ContinuousOn (fun c => sf.fn (1000 * (c - E)) 2) (Icc 0 (1 / 2000)) :=
    hd.farCont.comp (f := fun c => 1000 * (c - E)) (by fun_prop) fun c hc => mem_Iic.2 (by linarith [hc.2])
  exact (continuousOn_const.mul (c1.add c3)).add (continuousOn_const.mul (c2.add c3))

/-- the shift at which the count leaves the tolerance -/
theorem exists_edge (h : Overfills sf y) (hd : Drops sf y) (hE : 1 ≤ E) :
    ∃ c, 0 < c ∧ c < 1 / 2000 ∧ wideCount sf y E c = 2 - 1 / 10 ^ 11 := by
  have h0 := wideCount_zero h hE
  have h1 : wideCount sf y E (1 / 2000) < 2 - 1 / 10 ^ 11 := by
    have hw := wideWeights_eighth h hE
    have hw1 := (wideWeights_ok h hE).2.1
    have e0 := h0
    simp only [wideCount] at e0 ⊢
    have a1 := hd.drop
    have a2 : sf.fn (1000 * (1 / 2000) - y) 2 ≤ sf.fn (1000 * 0 - y) 2 :=
      hd.under ⟨by linarith, by linarith⟩ ⟨by linarith, by linarith⟩ (by linarith)
    have a3 : sf.fn (1000 * (1 / 2000 - E)) 2 ≤ sf.fn (1000 * (0 - E)) 2 :=
      hd.far (mem_Iic.2 (by linarith)) (mem_Iic.2 (by linarith)) (by linarith)
    rw [show (1000 : ℝ) * (1 / 2000) + 2 = 5 / 2 by norm_num]
    rw [show (1000 : ℝ) * 0 + 2 = 2 by norm_num] at e0
    have e1 := mul_le_mul_of_nonneg_left (add_le_add a1 a3) (by linarith : 0 ≤ wideWeights sf y E 0)
    have e2 := mul_le_mul_of_nonneg_left (add_le_add a2 a3) (by linarith : 0 ≤ wideWeights sf y E 1)
    have e3 : (1 : ℝ) / 10 ^ 11 < 1 / 8 * (1 / 10000) := by norm_num
    have e4 := mul_le_mul_of_nonneg_right hw (by norm_num : (0 : ℝ) ≤ 1 / 10000)
    rw [show wideWeights sf y E 0 * (sf.fn 2 2 - 1 / 10000 + sf.fn (1000 * (0 - E)) 2) =
      wideWeights sf y E 0 * (sf.fn 2 2 + sf.fn (1000 * (0 - E)) 2) - wideWeights sf y E 0 * (1 / 10000) by ring] at e1
    refine lt_of_le_of_lt (add_le_add e1 e2) ?_
    rw [sub_add_eq_add_sub, e0]
    linarith
  obtain ⟨c, hc, hv⟩ := intermediate_value_Icc' (by norm_num : (0 : ℝ) ≤ 1 / 2000) (wideCount_cont hd hE)
    (show 2 - 1 / 10 ^ 11 ∈ Icc (wideCount sf y E (1 / 2000)) (wideCount sf y E 0) from
      ⟨h1.le, by rw [h0]; norm_num⟩)
  refine ⟨c, lt_of_le_of_ne hc.1 ?_, lt_of_le_of_ne hc.2 ?_, hv⟩
  · rintro rfl
    rw [h0] at hv
    norm_num at hv
  · rintro rfl
    linarith

/-- before the edge the search stays where it starts -/
theorem wide_before (useNewton : Bool) (h : Overfills sf y) (hd : Drops sf y) (hE : 1 ≤ E) {c e : ℝ} (hc : 0 ≤ c)
    (hce : c < e) (he : e < 1 / 2000) (hv : wideCount sf y E e = 2 - 1 / 10 ^ 11) :
    globalSearch useNewton (smearFns .gauss) sf wideP (oneRank wideKey (wideWeights sf y E) (wideShift y E c)) = .ok 0 := by
  rw [wide_bracket useNewton h hE hc (by linarith)]
  have hin : ∀ {x}, 0 ≤ x → x ≤ e → x ∈ Icc (0 : ℝ) (1 / 2000) := fun h1 h2 => ⟨h1, by linarith⟩
  have h1 : wideCount sf y E e < wideCount sf y E c :=
    wideCount_anti h hd hE (hin hc hce.le) (hin (hc.trans hce.le) le_rfl) hce
  have h2 : wideCount sf y E c ≤ 2 := by
    rw [← wideCount_zero h hE]
    exact (wideCount_anti h hd hE).antitoneOn (hin le_rfl (hc.trans hce.le)) (hin hc hce.le) hc
  have hval : (fun mu : ℝ => 2 - (wideWeights sf y E 0 * (sf.fn (1000 * (mu + c) + 2) 2 + sf.fn (1000 * (mu + c - E)) 2)
        + wideWeights sf y E 1 * (sf.fn (1000 * (mu + c) - y) 2 + sf.fn (1000 * (mu + c - E)) 2))) (lit 0) =
      2 - wideCount sf y E c := by
    simp only [real_lit, Rat.cast_zero, zero_add, wideCount]
  have habs : |2 - wideCount sf y E c| < 1 / 10 ^ 11 := by
    rw [abs_of_nonneg (by linarith)]
    linarith
  beta_reduce at hval
  rw [C02_good_start_kept _ (lit 0) (1 / 10 ^ 11) (by rw [hval]; simp only [real_lt, real_abs, habs.not_gt, decide_false])
    (by rw [hval]; simp only [real_lt, real_abs, habs, decide_true])]
  simp

/-- behind the edge it moves on until the band is full -/
theorem wide_behind (useNewton : Bool) (h : Overfills sf y) (hd : Drops sf y) (hE : 1 ≤ E) {c e : ℝ} (he0 : 0 ≤ e)
    (hce : e < c) (hc : c ≤ 1 / 2000) (hv : wideCount sf y E e = 2 - 1 / 10 ^ 11) :
    globalSearch useNewton (smearFns .gauss) sf wideP (oneRank wideKey (wideWeights sf y E) (wideShift y E c)) =
      .ok (1 / 8) := by
  rw [wide_bracket useNewton h hE (by linarith) hc]
  have h1 : wideCount sf y E c < wideCount sf y E e :=
    wideCount_anti h hd hE ⟨he0, by linarith⟩ ⟨by linarith, hc⟩ hce
  refine findChemPotRun_eighth ?_ (by norm_num) ?_
  · simp only [zero_add]
    change _ < 2 - wideCount sf y E c
    linarith
  · obtain ⟨hw0, hw1, hw, -⟩ := wideWeights_ok h hE
    obtain ⟨hy0, hy1⟩ := h.range
    have b1 := abs_le.1 (hd.high (1000 * (1 / 8 + c) + 2) (by linarith))
    have b2 := abs_le.1 (hd.high (1000 * (1 / 8 + c) - y) (by linarith))
    have b3 := abs_le.1 (h.fnLow (1000 * (1 / 8 + c - E)) (by linarith))
    generalize sf.fn (1000 * (1 / 8 + c) + 2) 2 = A at *
    generalize sf.fn (1000 * (1 / 8 + c) - y) 2 = B at *
    generalize sf.fn (1000 * (1 / 8 + c - E)) 2 = C at *
    generalize wideWeights sf y E 0 = w0 at *
    generalize wideWeights sf y E 1 = w1 at *
    have e : 2 - (w0 * (A + C) + w1 * (B + C)) = -(w0 * (A - 2) + w1 * (B - 2) + (w0 + w1) * C)
      + 2 * (1 - (w0 + w1)) := by ring
    rw [e, hw, one_mul, sub_self, mul_zero, add_zero, abs_neg]
    have c1 := mul_le_mul_of_nonneg_left b1.1 hw0.le
    have c2 := mul_le_mul_of_nonneg_left b1.2 hw0.le
    have c3 := mul_le_mul_of_nonneg_left b2.1 (by linarith : 0 ≤ w1)
    have c4 := mul_le_mul_of_nonneg_left b2.2 (by linarith : 0 ≤ w1)
    have c5 : w0 * (1 / 10 ^ 20) + w1 * (1 / 10 ^ 20) = 1 / 10 ^ 20 := by rw [← add_mul, hw, one_mul]
    have c6 : (1 : ℝ) / 10 ^ 20 + 1 / 10 ^ 20 < 1 / 10 ^ 11 := by norm_num
    rw [abs_lt]
    constructor <;> linarith [b3.1, b3.2]

end Nlcg
