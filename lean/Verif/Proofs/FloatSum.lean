import Verif.Spec.FloatSum
import Verif.Proofs.Occupation
import Mathlib.Tactic.Positivity
import Mathlib.Tactic.Linarith
import Mathlib.Tactic.FieldSimp

/-! Rounding errors of sums in floating point. -/

namespace Nlcg
open Spec Arith

variable {r : Rounding} {u η : ℝ}

theorem F64.norm_num {x s : ℝ} (h : (F64.norm x : F64 r) = .num s) : s = r.rnd x := by
  unfold F64.norm at h
  split_ifs at h
  cases h
  rfl

theorem F64.add_num {a b : F64 r} {s : ℝ} (h : a +ᶠ b = .num s) :
    ∃ x y, a = .num x ∧ b = .num y ∧ s = r.rnd (x + y) := by
  change F64.add a b = .num s at h
  cases a <;> cases b <;> simp only [F64.add] at h
  · exact ⟨_, _, rfl, rfl, F64.norm_num h⟩
  all_goals first | cases h | (split_ifs at h)

theorem F64.mul_num {a b : F64 r} {s : ℝ} (h : a *ᶠ b = .num s) :
    ∃ x y, a = .num x ∧ b = .num y ∧ s = r.rnd (x * y) := by
  change F64.mul a b = .num s at h
  cases a <;> cases b <;> simp only [F64.mul] at h
  · exact ⟨_, _, rfl, rfl, F64.norm_num h⟩
  all_goals first | cases h | (split_ifs at h)

theorem F64.sub_num {a b : F64 r} {s : ℝ} (h : a -ᶠ b = .num s) :
    ∃ x y, a = .num x ∧ b = .num y ∧ s = r.rnd (x - y) := by
  obtain ⟨x, y, h1, h2, h3⟩ := F64.add_num (a := a) (b := F64.neg b) h
  cases b <;> cases h2
  exact ⟨x, _, h1, rfl, by rw [h3, sub_eq_add_neg]⟩

theorem Spec.Accurate.zero (h : Accurate r u η) : r.rnd 0 = 0 := by
  have := h.symm 0
  rw [neg_zero] at this
  linarith

theorem Spec.Accurate.lit_zero (h : Accurate r u η) : (lit 0 : F64 r) = .num 0 := by
  show F64.norm _ = _
  have := h.huge
  rw [F64.norm, if_pos (by simp; linarith)]
  simp [h.zero]

/-- negating a difference swaps it -/
theorem Spec.Accurate.swap (h : Accurate r u η) (e mu : F64 r) : lit (-1) *ᶠ (e -ᶠ mu) = mu -ᶠ e := by
  have h1 : (lit (-1) : F64 r) = .num (-1) := by
    show F64.norm _ = _
    have := h.huge
    rw [F64.norm, if_pos (by simpa using this)]
    simp [h.symm, h.one]
  have hn : ∀ x : ℝ, F64.mul (.num (-1)) (F64.norm x : F64 r) = F64.norm (-x) := by
    intro x
    unfold F64.norm
    by_cases hx : |x| < r.huge
    · have h2 : |(-1) * r.rnd x| < r.huge := by rw [neg_one_mul, abs_neg]; exact h.below x hx
      rw [if_pos hx, abs_neg, if_pos hx]
      simp only [F64.mul, F64.norm, if_pos h2]
      rw [neg_one_mul, h.symm, h.again, h.symm]
    · rw [if_neg hx, abs_neg, if_neg hx]
      have hx0 : x ≠ 0 := by
        rintro rfl
        have := h.huge
        rw [abs_zero] at hx
        linarith
      simp only [F64.mul]
      rw [if_neg (by norm_num)]
      have e1 : decide ((-1 : ℝ) < 0) = true := by norm_num
      rw [e1]
      rcases lt_or_gt_of_ne hx0 with h0 | h0
      · simp [h0, h0.le]
      · simp [h0, h0.le]
  rw [h1]
  show F64.mul (.num (-1)) (F64.add e (F64.neg mu)) = F64.add mu (F64.neg e)
  cases e <;> cases mu <;> simp only [F64.add, F64.neg]
  · rw [hn]; congr 1; ring
  case inf.inf b b' => cases b <;> cases b' <;> simp [F64.mul]
  all_goals simp [F64.mul]

@[simp] theorem val_num (x : ℝ) : val (.num x : F64 r) = x := rfl

theorem foldl_add_num {l : List (F64 r)} {a : F64 r} {s : ℝ} (h : l.foldl (· +ᶠ ·) a = .num s) : ∃ x, a = .num x := by
  induction l generalizing a with
  | nil => exact ⟨s, h⟩
  | cons v l ih =>
    obtain ⟨x, hx⟩ := ih h
    obtain ⟨y, -, rfl, -, -⟩ := F64.add_num hx
    exact ⟨y, rfl⟩

/-- error of a sum, term by term from a start value -/
theorem sum_error (h : Accurate r u η) {l : List (F64 r)} {a s : ℝ} (hs : l.foldl (· +ᶠ ·) (.num a) = .num s) :
    (∀ v ∈ l, ∃ y, v = .num y) ∧
    |s - (a + (l.map val).sum)| ≤ ((1 + u) ^ l.length - 1) * (|a| + (l.map fun v => |val v|).sum)
      + η * (l.length * (1 + u) ^ l.length) := by
  induction l generalizing a with
  | nil =>
    cases hs
    simp
  | cons v l ih =>
    have hs' : l.foldl (· +ᶠ ·) (.num a +ᶠ v) = .num s := hs
    obtain ⟨a', ha'⟩ := foldl_add_num hs'
    obtain ⟨x, y, hx, rfl, hr⟩ := F64.add_num ha'
    cases hx
    rw [ha'] at hs'
    obtain ⟨h1, h2⟩ := ih hs'
    refine ⟨fun w hw => ?_, ?_⟩
    · rcases List.mem_cons.1 hw with rfl | hw
      · exact ⟨y, rfl⟩
      · exact h1 w hw
    · have he := h.error (a + y)
      rw [← hr] at he
      have hu := h.u_nonneg
      have hη := h.η_nonneg
      simp only [List.map_cons, List.sum_cons, List.length_cons, val_num]
      generalize (l.map val).sum = S at *
      have hT : 0 ≤ (l.map fun v => |val v|).sum := List.sum_nonneg (by
        intro z hz; obtain ⟨w, -, rfl⟩ := List.mem_map.1 hz; exact abs_nonneg _)
      generalize (l.map fun v => |val v|).sum = T at *
      have hg : 1 ≤ (1 + u) ^ l.length := one_le_pow₀ (by linarith)
      have hay := abs_add_le a y
      have ha : |a'| ≤ (1 + u) * (|a| + |y|) + η := by
        have e1 : |a'| ≤ |a + y| + |a' - (a + y)| := by
          have := abs_add_le (a + y) (a' - (a + y))
          rwa [add_sub_cancel] at this
        have e2 := mul_le_mul_of_nonneg_left hay (by linarith : 0 ≤ 1 + u)
        linarith
      have e3 : |s - (a + (y + S))| ≤ |s - (a' + S)| + |a' - (a + y)| := by
        have := abs_add_le (s - (a' + S)) (a' - (a + y))
        rwa [show s - (a' + S) + (a' - (a + y)) = s - (a + (y + S)) by ring] at this
      have e4 := mul_le_mul_of_nonneg_left ha (by linarith : 0 ≤ (1 + u) ^ l.length - 1)
      have e5 := mul_le_mul_of_nonneg_left hay hu
      rw [pow_succ]
      generalize (1 + u) ^ l.length = G at *
      push_cast
      have hA := abs_nonneg a
      have hY := abs_nonneg y
      have hn : (0 : ℝ) ≤ l.length := Nat.cast_nonneg _
      generalize (l.length : ℝ) = n at *
      have f1 : 0 ≤ G * u * T := by positivity
      have f2 : 0 ≤ η * ((n + 1) * (G * u)) := by positivity
      have f3 : 0 ≤ T := hT
      linarith

/-- one k-point: weight times the sum of its occupations -/
theorem term_error (h : Accurate r u η) {w : F64 r} {l : List (F64 r)} {t : ℝ}
    (ht : w *ᶠ l.foldl (· +ᶠ ·) (lit 0) = .num t) :
    (∃ y, w = .num y) ∧ (∀ v ∈ l, ∃ y, v = .num y) ∧
    |t - val w * (l.map val).sum| ≤ ((1 + u) ^ (l.length + 1) - 1) * (|val w| * (l.map fun v => |val v|).sum)
      + η * (l.length * (1 + u) ^ (l.length + 1) * |val w| + 1) := by
  obtain ⟨w, s, rfl, hs, hr⟩ := F64.mul_num ht
  rw [h.lit_zero] at hs
  obtain ⟨h1, h2⟩ := sum_error h hs
  refine ⟨⟨w, rfl⟩, h1, ?_⟩
  rw [zero_add, abs_zero, zero_add] at h2
  have he := h.error (w * s)
  rw [← hr, abs_mul] at he
  have hu := h.u_nonneg
  have hη := h.η_nonneg
  rw [val_num]
  have hST : |(l.map val).sum| ≤ (l.map fun v => |val v|).sum := by
    clear * -
    induction l with
    | nil => simp
    | cons v l ih =>
      simp only [List.map_cons, List.sum_cons]
      exact (abs_add_le _ _).trans (by linarith)
  generalize (l.map val).sum = S at *
  generalize (l.map fun v => |val v|).sum = T at *
  have e1 : |s| ≤ |S| + |s - S| := by
    have := abs_add_le S (s - S)
    rwa [add_sub_cancel] at this
  have e2 : |t - w * S| ≤ |t - w * s| + |w| * |s - S| := by
    have := abs_add_le (t - w * s) (w * (s - S))
    rw [abs_mul] at this
    rwa [show t - w * s + w * (s - S) = t - w * S by ring] at this
  have e3 := mul_le_mul_of_nonneg_left (e1.trans (add_le_add hST h2)) (mul_nonneg hu (abs_nonneg w))
  have e4 := mul_le_mul_of_nonneg_left h2 (abs_nonneg w)
  rw [pow_succ]
  generalize (1 + u) ^ l.length = G at *
  generalize (l.length : ℝ) = n at *
  linarith

theorem sum_close {β : Type} {t c m ε : β → ℝ} {α : ℝ} :
    ∀ qs : List β, (∀ q ∈ qs, |t q - c q| ≤ α * m q + ε q) → (∀ q ∈ qs, |c q| ≤ m q) →
      |(qs.map t).sum - (qs.map c).sum| ≤ α * (qs.map m).sum + (qs.map ε).sum ∧
      (qs.map fun q => |t q|).sum ≤ (1 + α) * (qs.map m).sum + (qs.map ε).sum
  | [], _, _ => by simp
  | q :: qs, h, h' => by
    obtain ⟨h1, h2⟩ := sum_close qs (fun q hq => h q (List.mem_cons_of_mem _ hq))
      fun q hq => h' q (List.mem_cons_of_mem _ hq)
    have h3 := h q List.mem_cons_self
    have h4 := h' q List.mem_cons_self
    simp only [List.map_cons, List.sum_cons]
    constructor
    · have := abs_add_le (t q - c q) ((qs.map t).sum - (qs.map c).sum)
      rw [show t q - c q + ((qs.map t).sum - (qs.map c).sum) = t q + (qs.map t).sum - (c q + (qs.map c).sum) by ring]
        at this
      linarith
    · have : |t q| ≤ |c q| + |t q - c q| := by
        have := abs_add_le (c q) (t q - c q)
        rwa [add_sub_cancel] at this
      linarith

/-- all k-points -/
theorem points_error (h : Accurate r u η) {β : Type} {w : β → F64 r} {f : β → List (F64 r)} {qs : List β} {s : ℝ} {B : ℕ}
    (hB : ∀ q ∈ qs, (f q).length ≤ B)
    {ts : List (F64 r)} (hts : ts.Perm (qs.map fun q => w q *ᶠ (f q).foldl (· +ᶠ ·) (lit 0)))
    (hs : ts.foldl (· +ᶠ ·) (lit 0) = .num s) :
    (∀ q ∈ qs, (∃ y, w q = .num y) ∧ ∀ v ∈ f q, ∃ y, v = .num y) ∧
    |s - (qs.map fun q => val (w q) * ((f q).map val).sum).sum| ≤
      ((1 + u) ^ (B + qs.length + 1) - 1) * (qs.map fun q => |val (w q)| * ((f q).map fun v => |val v|).sum).sum
      + η * (1 + u) ^ qs.length * (2 * qs.length + B * (1 + u) ^ (B + 1) * (qs.map fun q => |val (w q)|).sum) := by
  rw [h.lit_zero] at hs
  obtain ⟨h1, h2⟩ := sum_error h hs
  have hlen : ts.length = qs.length := by rw [hts.length_eq, List.length_map]
  have hu := h.u_nonneg
  have hη := h.η_nonneg
  have hterm : ∀ q ∈ qs, ∃ t, w q *ᶠ (f q).foldl (· +ᶠ ·) (lit 0) = .num t := fun q hq =>
    h1 _ (hts.mem_iff.2 (List.mem_map_of_mem hq))
  have hall : ∀ q ∈ qs, (∃ y, w q = .num y) ∧ (∀ v ∈ f q, ∃ y, v = .num y) ∧
      |val (w q *ᶠ (f q).foldl (· +ᶠ ·) (lit 0)) - val (w q) * ((f q).map val).sum|
        ≤ ((1 + u) ^ (B + 1) - 1) * (|val (w q)| * ((f q).map fun v => |val v|).sum)
          + η * (B * (1 + u) ^ (B + 1) * |val (w q)| + 1) := by
    intro q hq
    obtain ⟨t, ht⟩ := hterm q hq
    obtain ⟨a, b, c⟩ := term_error h ht
    refine ⟨a, b, ?_⟩
    rw [ht, val_num]
    have hp : (1 + u) ^ ((f q).length + 1) ≤ (1 + u) ^ (B + 1) :=
      pow_le_pow_right₀ (by linarith) (by have := hB q hq; omega)
    have hn : ((f q).length : ℝ) ≤ B := by exact_mod_cast hB q hq
    have hT : 0 ≤ ((f q).map fun v => |val v|).sum := List.sum_nonneg (by
      intro z hz; obtain ⟨v, -, rfl⟩ := List.mem_map.1 hz; exact abs_nonneg _)
    have hw := abs_nonneg (val (w q))
    have k1 := mul_le_mul_of_nonneg_right (sub_le_sub_right hp 1) (mul_nonneg hw hT)
    have k2 : ((f q).length : ℝ) * (1 + u) ^ ((f q).length + 1) ≤ B * (1 + u) ^ (B + 1) :=
      mul_le_mul hn hp (by positivity) (by positivity)
    have k3 := mul_le_mul_of_nonneg_left (add_le_add_left (mul_le_mul_of_nonneg_right k2 hw) 1) hη
    linarith
  refine ⟨fun q hq => ⟨(hall q hq).1, (hall q hq).2.1⟩, ?_⟩
  obtain ⟨c1, c2⟩ := sum_close (t := fun q => val (w q *ᶠ (f q).foldl (· +ᶠ ·) (lit 0)))
    (c := fun q => val (w q) * ((f q).map val).sum) (m := fun q => |val (w q)| * ((f q).map fun v => |val v|).sum)
    (ε := fun q => η * (B * (1 + u) ^ (B + 1) * |val (w q)| + 1)) (α := (1 + u) ^ (B + 1) - 1) qs
    (fun q hq => (hall q hq).2.2) (fun q _ => by
      rw [abs_mul]
      refine mul_le_mul_of_nonneg_left ?_ (abs_nonneg _)
      generalize f q = l
      induction l with
      | nil => simp
      | cons v l ih =>
        simp only [List.map_cons, List.sum_cons]
        exact (abs_add_le _ _).trans (by linarith))
  rw [zero_add, abs_zero, zero_add, (hts.map val).sum_eq, (hts.map fun v => |val v|).sum_eq, hlen, List.map_map,
    List.map_map] at h2
  simp only [Function.comp_def] at h2
  have hε : (qs.map fun q => η * (B * (1 + u) ^ (B + 1) * |val (w q)| + 1)).sum
      = η * (B * (1 + u) ^ (B + 1) * (qs.map fun q => |val (w q)|).sum + qs.length) := by
    clear * -
    induction qs with
    | nil => simp
    | cons q qs ih =>
      simp only [List.map_cons, List.sum_cons, ih, List.length_cons]
      push_cast
      ring
  rw [hε] at c1 c2
  have hpow : (1 + u) ^ (B + qs.length + 1) = (1 + u) ^ (B + 1) * (1 + u) ^ qs.length := by
    rw [← pow_add]; congr 1; omega
  rw [hpow]
  have hG : 1 ≤ (1 + u) ^ qs.length := one_le_pow₀ (by linarith)
  generalize (qs.map fun q => |val (w q)|).sum = W at *
  generalize (qs.map fun q => |val (w q)| * ((f q).map fun v => |val v|).sum).sum = M at *
  generalize (qs.map fun q => val (w q) * ((f q).map val).sum).sum = C at *
  generalize (qs.map fun q => val (w q *ᶠ (f q).foldl (· +ᶠ ·) (lit 0))).sum = P at *
  generalize (qs.map fun q => |val (w q *ᶠ (f q).foldl (· +ᶠ ·) (lit 0))|).sum = Q at *
  generalize (1 + u) ^ qs.length = G at *
  generalize (1 + u) ^ (B + 1) = H at *
  generalize (qs.length : ℝ) = K at *
  have e1 : |s - C| ≤ |s - P| + |P - C| := abs_sub_le s P C
  have e2 := mul_le_mul_of_nonneg_left c2 (by linarith : 0 ≤ G - 1)
  linarith

end Nlcg
