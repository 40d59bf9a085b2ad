import Verif.Props.Smearing
import Mathlib.Topology.Order.IntermediateValue
import Mathlib.Analysis.Calculus.MeanValue

/-! The electron count of a band structure is close to a Lipschitz function that runs from 0 to
the capacity, so some window of chemical potentials gives any admissible electron number. -/

namespace Nlcg
open Real Spec

/-! ## Weighted sums over all bands -/

/-- weighted sum of `g` over all bands -/
noncomputable def bandSum (d : Spec.Dist ℝ) (g : ℝ → ℝ) : ℝ :=
  (d.flatten.map fun q => q.weight * (q.energies.map g).sum).sum

theorem bandSum_mono {d : Spec.Dist ℝ} (hw : ∀ q ∈ d.flatten, 0 ≤ q.weight) {g h : ℝ → ℝ}
    (hgh : ∀ q ∈ d.flatten, ∀ e ∈ q.energies, g e ≤ h e) : bandSum d g ≤ bandSum d h := by
  refine List.sum_le_sum fun q hq => mul_le_mul_of_nonneg_left ?_ (hw q hq)
  exact List.sum_le_sum fun e he => hgh q hq e he

theorem sum_map_add_const (l : List ℝ) (g : ℝ → ℝ) (c : ℝ) :
    (l.map fun e => g e + c).sum = (l.map g).sum + c * l.length := by
  induction l with
  | nil => simp
  | cons a l ih => simp only [List.map_cons, List.sum_cons, ih, List.length_cons]; push_cast; ring

theorem bandSum_add_const (d : Spec.Dist ℝ) (g : ℝ → ℝ) (c : ℝ) :
    bandSum d (fun e => g e + c) = bandSum d g + c * capacity d 1 := by
  unfold bandSum capacity
  induction d.flatten with
  | nil => simp
  | cons q l ih =>
    simp only [List.map_cons, List.sum_cons, sum_map_add_const] at ih ⊢
    rw [ih]; ring

theorem bandSum_close {d : Spec.Dist ℝ} (hw : ∀ q ∈ d.flatten, 0 ≤ q.weight) {g h : ℝ → ℝ} {c : ℝ}
    (hgh : ∀ e, |g e - h e| ≤ c) : |bandSum d g - bandSum d h| ≤ c * capacity d 1 := by
  have h1 : bandSum d g ≤ bandSum d (fun e => h e + c) :=
    bandSum_mono hw fun q _ e _ => by linarith [(abs_le.1 (hgh e)).2]
  have h2 : bandSum d h ≤ bandSum d (fun e => g e + c) :=
    bandSum_mono hw fun q _ e _ => by linarith [(abs_le.1 (hgh e)).1]
  rw [bandSum_add_const] at h1 h2
  rw [abs_le]; constructor <;> linarith

theorem bandSum_const (d : Spec.Dist ℝ) (c : ℝ) : bandSum d (fun _ => c) = c * capacity d 1 := by
  have h := bandSum_add_const d (fun _ => 0) c
  have h0 : bandSum d (fun _ => 0) = 0 := by
    unfold bandSum
    induction d.flatten with
    | nil => rfl
    | cons q l ih => simp
  simpa [h0] using h

theorem capacity_nonneg {d : Spec.Dist ℝ} (hw : ∀ q ∈ d.flatten, 0 ≤ q.weight) {occ : ℝ}
    (h : 0 ≤ occ) : 0 ≤ capacity d occ := by
  refine mul_nonneg h (List.sum_nonneg fun v hv => ?_)
  obtain ⟨q, hq, rfl⟩ := List.mem_map.1 hv
  exact mul_nonneg (hw q hq) (by positivity)

theorem capacity_scale (d : Spec.Dist ℝ) (occ : ℝ) : capacity d occ = occ * capacity d 1 := by
  simp [capacity]

/-! ## Ideal occupations -/

/-- tails of the error function -/
theorem erfc_le (x : ℝ) (h : 1 ≤ x) : erfc x ≤ exp (-x ^ 2) := by
  set g : ℝ → ℝ := fun y => exp (-y ^ 2) - erfc y with hg
  have hd : ∀ y, HasDerivAt g (exp (-y ^ 2) * (-(2 * y)) + 2 / √π * exp (-y ^ 2)) y := by
    intro y
    have h1 := ((hasDerivAt_pow 2 y).neg).exp
    have h2 := h1.sub (hasDerivAt_erfc y)
    refine hd_to h2 (fun _ => rfl) ?_
    simp
  have hpi : 1 ≤ √π := by
    rw [one_le_sqrt]; linarith [two_le_pi]
  have hanti : AntitoneOn g (Set.Ici 1) := by
    apply antitoneOn_of_deriv_nonpos (convex_Ici _)
    · exact fun y _ => (hd y).continuousAt.continuousWithinAt
    · exact fun y _ => (hd y).differentiableAt.differentiableWithinAt
    · intro y hy
      rw [interior_Ici, Set.mem_Ioi] at hy
      rw [(hd y).deriv]
      have he := exp_pos (-y ^ 2)
      have : 2 / √π ≤ 2 := div_le_self (by norm_num) hpi
      nlinarith
  have hlim : Filter.Tendsto g Filter.atTop (nhds 0) := by
    have h1 : Filter.Tendsto (fun y : ℝ => exp (-y ^ 2)) Filter.atTop (nhds 0) :=
      tendsto_exp_neg_atTop_nhds_zero.comp (Filter.tendsto_pow_atTop (by norm_num))
    have h2 := h1.sub (tendsto_erf_atTop.const_sub 1)
    simp only [sub_self] at h2
    exact h2
  have : 0 ≤ g x := by
    refine le_of_tendsto hlim ?_
    filter_upwards [Filter.eventually_ge_atTop x] with y hy
    exact hanti (Set.mem_Ici.2 h) (Set.mem_Ici.2 (by linarith)) hy
  simp only [hg] at this
  linarith

/-- `g` is the occupation fraction that `fn` computes up to its cut-offs -/
structure IdealOf (fn : ℝ → ℝ → ℝ) (g : ℝ → ℝ) : Prop where
  close : ∀ x mo, 0 ≤ mo → |fn x mo - mo * g x| ≤ mo * exp (-35)
  lip : ∀ x y, |g x - g y| ≤ |x - y|
  low : ∀ x, x ≤ -36 → g x ≤ exp (-35)
  high : ∀ x, 36 ≤ x → 1 - exp (-35) ≤ g x

theorem lip_of_deriv {g g' : ℝ → ℝ} (h : ∀ x, HasDerivAt g (g' x) x) (hb : ∀ x, |g' x| ≤ 1)
    (x y : ℝ) : |g x - g y| ≤ |x - y| := by
  have := Convex.norm_image_sub_le_of_norm_hasDerivWithin_le (f := g) (f' := g') (C := 1)
    (s := Set.univ) (x := y) (y := x) (fun z _ => (h z).hasDerivWithinAt)
    (fun z _ => by simpa using hb z) convex_univ trivial trivial
  simpa using this

theorem high_of_symm {g : ℝ → ℝ} (hs : ∀ x, g (-x) = 1 - g x)
    (hl : ∀ x, x ≤ -36 → g x ≤ exp (-35)) (x : ℝ) (h : 36 ≤ x) : 1 - exp (-35) ≤ g x := by
  have := hl (-x) (by linarith)
  rw [hs] at this
  linarith

theorem idealOf_fermi : IdealOf (smearFns .fermiDirac).fn fermi := by
  have e : fermi = fun x => fdMid x 1 := by funext x; rw [← fermi_eq, one_mul]
  have hlow : ∀ x, x ≤ -36 → fermi x ≤ exp (-35) := by
    intro x hx
    have h0 := exp_pos x
    have : exp x ≤ exp (-35) := exp_le_exp.2 (by linarith)
    rw [e]; simp only [fdMid_eq, one_mul]
    rw [div_le_iff₀ (by positivity)]; nlinarith
  refine ⟨C14_fermi_dirac_cutoff, ?_, hlow, high_of_symm ?_ hlow⟩
  · rw [e]
    refine lip_of_deriv (fun x => hasDerivAt_fdMid x 1) fun x => ?_
    have h0 := exp_pos x
    rw [abs_of_nonneg (by positivity), div_le_one (by positivity)]
    nlinarith
  · intro x
    rw [e]; simp only [fdMid, exp_neg]
    have := exp_pos x
    field_simp; ring

theorem idealOf_spline : IdealOf (smearFns .gaussianSpline).fn spline := by
  have h2 : 1 ≤ √(2 : ℝ) := by rw [one_le_sqrt]; norm_num
  have h22 : √(2 : ℝ) ≤ 2 := by rw [sqrt_le_left (by norm_num)]; norm_num
  have e : spline = fun x => gsMid x 1 := by funext x; rw [← spline_eq, one_mul]
  have hlow : ∀ x, x ≤ -36 → spline x ≤ exp (-35) := by
    intro x hx
    rw [spline, if_pos (by linarith)]
    have h1 : exp (√2 * x - x ^ 2) ≤ exp (-35) := exp_le_exp.2 (by nlinarith)
    have := exp_pos (√2 * x - x ^ 2)
    linarith
  have bound : ∀ x, 0 ≤ x → exp (-x * (√2 + x)) * (√2 + 2 * x) ≤ 2 := by
    intro x hx
    have h1 : x * (√2 + x) + 1 ≤ exp (x * (√2 + x)) := add_one_le_exp _
    have e1 : exp (-x * (√2 + x)) = (exp (x * (√2 + x)))⁻¹ := by rw [← exp_neg]; ring_nf
    rw [e1, inv_mul_le_iff₀ (exp_pos _)]
    nlinarith
  refine ⟨C14_gaussian_spline_cutoff, ?_, hlow, high_of_symm ?_ hlow⟩
  · rw [e]
    refine lip_of_deriv (fun x => hasDerivAt_gsMid x 1) fun x => ?_
    split_ifs with hx
    · have hb := bound (-x) (by linarith)
      have e1 : - -x * (√2 + -x) = (√2 - x) * x := by ring
      rw [e1] at hb
      have : 0 ≤ √2 - 2 * x := by linarith
      rw [abs_of_nonneg (by positivity)]
      linarith
    · push Not at hx
      have hb := bound x hx.le
      rw [abs_of_nonneg (by positivity)]
      linarith
  · intro x
    simp only [spline]
    split_ifs <;> first | linarith | skip
    · have : x = 0 := by linarith
      subst this; norm_num
    · rw [neg_sq, show √2 * -x = -(√2 * x) by ring]; ring
    · rw [neg_sq, show -(√2 * -x) = √2 * x by ring]

theorem idealOf_gauss : IdealOf (smearFns .gauss).fn (fun x => (1 + erf x) / 2) := by
  have hlow : ∀ x, x ≤ -36 → (1 + erf x) / 2 ≤ exp (-35) := by
    intro x hx
    have h1 := erfc_le (-x) (by linarith)
    rw [erfc, erf_neg] at h1
    have h2 : exp (-(-x) ^ 2) ≤ exp (-35) := exp_le_exp.2 (by nlinarith)
    have := exp_pos (-35)
    linarith
  refine ⟨?_, ?_, hlow, high_of_symm ?_ hlow⟩
  · intro x mo h
    have : (smearFns .gauss).fn x mo - mo * ((1 + erf x) / 2) = 0 := by
      show gaussFn x mo - _ = _
      rw [gaussFn]; ring
    rw [this, abs_zero]; positivity
  · refine lip_of_deriv (fun x => ((hasDerivAt_erf x).const_add 1).div_const 2) fun x => ?_
    have hpi : 1 ≤ √π := by rw [one_le_sqrt]; linarith [two_le_pi]
    have h1 : exp (-x ^ 2) ≤ 1 := exp_le_one_iff.2 (by nlinarith)
    have h2 : 2 / √π ≤ 2 := div_le_self (by norm_num) hpi
    have h0 := exp_pos (-x ^ 2)
    have h3 : 0 < 2 / √π := by positivity
    rw [abs_of_nonneg (by positivity)]
    nlinarith
  · intro x; rw [erf_neg]; ring

theorem exists_ideal (t : SmearType) (ht : Monotonic t) : ∃ g, IdealOf (smearFns t).fn g := by
  cases t with
  | fermiDirac => exact ⟨_, idealOf_fermi⟩
  | gaussianSpline => exact ⟨_, idealOf_spline⟩
  | gauss => exact ⟨_, idealOf_gauss⟩
  | methfesselPaxton => exact ht.elim
  | cold => exact ht.elim

/-! ## The window -/

theorem exists_window {fn : ℝ → ℝ → ℝ} {g : ℝ → ℝ} (H : IdealOf fn g) (d : Spec.Dist ℝ)
    (hw : ∀ q ∈ d.flatten, 0 ≤ q.weight) {kT occ ne tol E w : ℝ} (hkT : 0 < kT) (hocc : 0 ≤ occ)
    (hE : ∀ q ∈ d.flatten, ∀ e ∈ q.energies, |e| ≤ E) (hE0 : 0 ≤ E)
    (hne0 : 0 ≤ ne) (hne1 : ne ≤ capacity d occ)
    (htol : 2 * (capacity d occ * exp (-35)) + capacity d occ * w / kT < tol) :
    ∃ m, |m| ≤ E + 36 * kT ∧ ∀ mu, |mu - m| ≤ w →
      |ne - bandSum d (fun e => fn ((mu - e) / kT) occ)| < tol := by
  set C := capacity d occ with hC
  have hC0 : 0 ≤ C := capacity_nonneg hw hocc
  have hC1 : C = occ * capacity d 1 := capacity_scale d occ
  set N : ℝ → ℝ := fun mu => bandSum d (fun e => occ * g ((mu - e) / kT)) with hN
  have hlip : ∀ a b, |N a - N b| ≤ C * (|a - b| / kT) := by
    intro a b
    have := bandSum_close hw (g := fun e => occ * g ((a - e) / kT))
      (h := fun e => occ * g ((b - e) / kT)) (c := occ * (|a - b| / kT)) (fun e => by
        rw [← mul_sub, abs_mul, abs_of_nonneg hocc]
        refine mul_le_mul_of_nonneg_left (le_trans (H.lip _ _) (le_of_eq ?_)) hocc
        rw [← sub_div, abs_div, abs_of_pos hkT]; congr 2; ring)
    rw [hC1]; calc _ ≤ _ := this
      _ = _ := by ring
  have hcont : Continuous N := by
    have : LipschitzWith (Real.toNNReal (C / kT)) N := by
      refine LipschitzWith.of_dist_le_mul fun a b => ?_
      rw [Real.dist_eq, Real.dist_eq, Real.coe_toNNReal _ (by positivity)]
      calc _ ≤ _ := hlip a b
        _ = _ := by ring
    exact this.continuous
  set M := E + 36 * kT with hM
  have he35 : exp (-35) ≤ 1 / 2 := by
    have h1 : (35 : ℝ) + 1 ≤ exp 35 := add_one_le_exp 35
    rw [exp_neg, one_div]
    exact inv_anti₀ (by norm_num) (by linarith)
  have hlow : N (-M) ≤ C * exp (-35) := by
    have := bandSum_mono hw (g := fun e => occ * g ((-M - e) / kT))
      (h := fun _ => occ * exp (-35)) (fun q hq e he => by
        refine mul_le_mul_of_nonneg_left (H.low _ ?_) hocc
        rw [div_le_iff₀ hkT]
        have := (abs_le.1 (hE q hq e he)).1
        linarith)
    rw [bandSum_const] at this
    rw [hC1]; calc _ ≤ _ := this
      _ = _ := by ring
  have hhigh : C * (1 - exp (-35)) ≤ N M := by
    have := bandSum_mono hw (h := fun e => occ * g ((M - e) / kT))
      (g := fun _ => occ * (1 - exp (-35))) (fun q hq e he => by
        refine mul_le_mul_of_nonneg_left (H.high _ ?_) hocc
        rw [le_div_iff₀ hkT]
        have := (abs_le.1 (hE q hq e he)).2
        linarith)
    rw [bandSum_const] at this
    rw [hC1]; calc _ = _ := by ring
      _ ≤ _ := this
  have hp := exp_pos (-35)
  -- an electron number inside the range of `N`
  obtain ⟨ne', h1, h2, h3⟩ : ∃ ne', C * exp (-35) ≤ ne' ∧ ne' ≤ C * (1 - exp (-35)) ∧
      |ne - ne'| ≤ C * exp (-35) := by
    have hmid : C * exp (-35) ≤ C * (1 - exp (-35)) :=
      mul_le_mul_of_nonneg_left (by linarith) hC0
    have hexp : C * (1 - exp (-35)) = C - C * exp (-35) := by ring
    rcases le_total ne (C * exp (-35)) with ha | ha
    · refine ⟨C * exp (-35), le_rfl, hmid, ?_⟩
      rw [abs_le]; constructor <;> linarith
    · rcases le_total (C * (1 - exp (-35))) ne with hb | hb
      · refine ⟨C * (1 - exp (-35)), hmid, le_rfl, ?_⟩
        rw [abs_le]; constructor <;> nlinarith
      · exact ⟨ne, ha, hb, by simpa using by positivity⟩
  have hM0 : 0 ≤ M := by positivity
  obtain ⟨m, hm, hmN⟩ := intermediate_value_Icc (show -M ≤ M by linarith) hcont.continuousOn
    (show ne' ∈ Set.Icc (N (-M)) (N M) from ⟨hlow.trans h1, h2.trans hhigh⟩)
  refine ⟨m, abs_le.2 hm, fun mu hmu => ?_⟩
  have hb1 := bandSum_close hw (g := fun e => fn ((mu - e) / kT) occ)
      (h := fun e => occ * g ((mu - e) / kT)) (c := occ * exp (-35))
      (fun e => H.close _ _ hocc)
  have hb1' : |bandSum d (fun e => fn ((mu - e) / kT) occ) - N mu| ≤ C * exp (-35) := by
    rw [hC1]; calc _ ≤ _ := hb1
      _ = _ := by ring
  have hb2 := hlip mu m
  have hb3 : C * (|mu - m| / kT) ≤ C * w / kT := by
    rw [mul_div_assoc]
    exact mul_le_mul_of_nonneg_left (div_le_div_of_nonneg_right hmu hkT.le) hC0
  rw [hmN] at hb2
  have t1 := abs_le.1 hb1'
  have t2 := abs_le.1 (hb2.trans hb3)
  have t3 := abs_le.1 h3
  rw [abs_lt]
  constructor <;> linarith [t1.1, t1.2, t2.1, t2.2, t3.1, t3.2]

end Nlcg
