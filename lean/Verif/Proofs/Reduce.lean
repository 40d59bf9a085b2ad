import Verif.Spec.Reduce
import Mathlib.Algebra.Order.Ring.Abs
import Mathlib.Algebra.BigOperators.Group.List.Basic
import Mathlib.Tactic.Linarith
import Mathlib.Tactic.Ring
import Mathlib.Tactic.Positivity
import Mathlib.Tactic.GCongr
import Mathlib.Tactic.FieldSimp
import Mathlib.Tactic.NormNum

/-! # Error of a sum in any order -/

namespace Nlcg
open Spec

/-- `c` is the sum of `xs` up to `m` roundings -/
def Approx (u : ℝ) (m : ℕ) (xs : List ℝ) (c : ℝ) : Prop :=
  |c - xs.sum| ≤ ((1 + u) ^ m - 1) * (xs.map abs).sum

theorem sum_abs_nonneg (xs : List ℝ) : 0 ≤ (xs.map abs).sum := by
  apply List.sum_nonneg
  intro x hx
  obtain ⟨y, -, rfl⟩ := List.mem_map.1 hx
  exact abs_nonneg _

theorem abs_sum_le (xs : List ℝ) : |xs.sum| ≤ (xs.map abs).sum := by
  induction xs with
  | nil => simp
  | cons x xs ih =>
    simp only [List.sum_cons, List.map_cons]
    exact (abs_add_le _ _).trans (by linarith)

theorem Approx.mono {u : ℝ} (hu : 0 ≤ u) {m m' : ℕ} (h : m ≤ m') {xs : List ℝ} {c : ℝ} (ha : Approx u m xs c) :
    Approx u m' xs c := by
  refine ha.trans (mul_le_mul_of_nonneg_right ?_ (sum_abs_nonneg xs))
  have := pow_le_pow_right₀ (by linarith : (1 : ℝ) ≤ 1 + u) h
  linarith

theorem Approx.perm {u : ℝ} {m : ℕ} {xs ys : List ℝ} (h : xs.Perm ys) {c : ℝ} (ha : Approx u m xs c) :
    Approx u m ys c := by
  rw [Approx, ← h.sum_eq, ← (h.map abs).sum_eq]
  exact ha

theorem Approx.add {u : ℝ} (hu : 0 ≤ u) {add : ℝ → ℝ → ℝ} (hadd : Rounded u add) {m : ℕ} {xs ys : List ℝ} {c d : ℝ}
    (h1 : Approx u m xs c) (h2 : Approx u m ys d) : Approx u (m + 1) (xs ++ ys) (add c d) := by
  have e0 := hadd c d
  have e1 := abs_sum_le xs
  have e2 := abs_sum_le ys
  rw [Approx] at *
  rw [List.sum_append, List.map_append, List.sum_append]
  set A := (xs.map abs).sum
  set B := (ys.map abs).sum
  set X := xs.sum
  set Y := ys.sum
  set q := (1 + u) ^ m
  have f1 : |c| ≤ q * A := by
    have := abs_add_le (c - X) X
    rw [sub_add_cancel] at this
    nlinarith
  have f2 : |d| ≤ q * B := by
    have := abs_add_le (d - Y) Y
    rw [sub_add_cancel] at this
    nlinarith
  have f3 : |c + d| ≤ q * A + q * B := (abs_add_le c d).trans (by linarith)
  calc |add c d - (X + Y)| = |(add c d - (c + d)) + ((c - X) + (d - Y))| := by ring_nf
    _ ≤ |add c d - (c + d)| + (|c - X| + |d - Y|) :=
        (abs_add_le _ _).trans (by have := abs_add_le (c - X) (d - Y); linarith)
    _ ≤ u * (q * A + q * B) + ((q - 1) * A + (q - 1) * B) := by
        have := mul_le_mul_of_nonneg_left f3 hu
        linarith
    _ = ((1 + u) ^ (m + 1) - 1) * (A + B) := by rw [pow_succ]; ring

theorem approx_single (u x : ℝ) : Approx u 0 [x] x := by simp [Approx]

theorem approx_nil (u : ℝ) : Approx u 0 [] 0 := by simp [Approx]

section
variable {κ : Type} {u : ℝ} {add : ℝ → ℝ → ℝ}

theorem foldl_approx (hu : 0 ≤ u) (hadd : Rounded u add) (l : KMap κ (Fl add)) :
    ∀ (m : ℕ) (xs : List ℝ) (c : Fl add), Approx u m xs c.val →
      Approx u (m + l.length) (xs ++ l.map fun e => e.2.val) (l.foldl (fun s e => s + e.2) c).val := by
  induction l with
  | nil => intro m xs c h; simpa using h
  | cons e l ih =>
    intro m xs c h
    have h1 : Approx u (m + 1) (xs ++ [e.2.val]) (c + e.2).val :=
      Approx.add hu hadd h ((approx_single u e.2.val).mono hu (Nat.zero_le m))
    have := ih (m + 1) _ _ h1
    simp only [List.append_assoc, List.cons_append, List.nil_append] at this
    simp only [List.length_cons, List.map_cons, List.foldl_cons]
    rw [show m + (l.length + 1) = m + 1 + l.length by omega]
    exact this

theorem localSum_approx (hu : 0 ≤ u) (hadd : Rounded u add) (l : KMap κ (Fl add)) :
    Approx u l.length (l.map fun e => e.2.val) (localSum l).val := by
  have := foldl_approx hu hadd l 0 [] 0 (approx_nil u)
  simpa [localSum] using this

/-- the elements of rank `r` -/
def share {ξ : Type} (xss : List (List ξ)) (r : ℕ) : List ξ := (xss[r]?).elim [] id

theorem flatMap_share {ξ : Type} (xss : List (List ξ)) : (List.range xss.length).flatMap (share xss) = xss.flatten := by
  induction xss with
  | nil => rfl
  | cons x xss ih =>
    rw [List.length_cons, List.range_succ_eq_map, List.flatMap_cons, List.flatten_cons]
    congr 1
    rw [List.flatMap_map, ← ih]
    rfl

theorem flatMap_covers {ξ : Type} {xss : List (List ξ)} {o : Order} (h : Covers o xss.length) :
    (o.ranks.flatMap (share xss)).Perm xss.flatten := by
  rw [← flatMap_share]
  exact h.flatMap_right _

theorem covers_lt {o : Order} {P : ℕ} (h : Covers o P) : ∀ r ∈ o.ranks, r < P := by
  intro r hr
  exact List.mem_range.1 (h.subset hr)

theorem reduce_approx (hu : 0 ≤ u) (hadd : Rounded u add) {locals : List (KMap κ (Fl add))} {L : ℕ}
    (hL : ∀ l ∈ locals, l.length ≤ L) (o : Order) (ho : ∀ r ∈ o.ranks, r < locals.length) :
    ∃ r, sumOrder o locals = .ok r ∧
      Approx u (L + o.depth) ((o.ranks.flatMap (share locals)).map fun e => e.2.val) r.val := by
  induction o with
  | rank r =>
    have hr : r < locals.length := ho r (by simp [Order.ranks])
    refine ⟨localSum locals[r], ?_, ?_⟩
    · simp [sumOrder, Order.reduce, hr]
    · simp only [Order.ranks, List.flatMap_cons, List.flatMap_nil, List.append_nil, share, hr,
        List.getElem?_eq_getElem, Option.elim_some, id]
      exact (localSum_approx hu hadd _).mono hu (le_add_right (hL _ (List.getElem_mem hr)))
  | join a b iha ihb =>
    obtain ⟨x, e1, h1⟩ := iha fun r hr => ho r (by simp [Order.ranks, hr])
    obtain ⟨y, e2, h2⟩ := ihb fun r hr => ho r (by simp [Order.ranks, hr])
    refine ⟨x + y, ?_, ?_⟩
    · unfold sumOrder at *
      rw [Order.reduce, e1, e2]
      rfl
    · have := Approx.add hu hadd (h1.mono hu (show L + a.depth ≤ L + max a.depth b.depth by omega))
        (h2.mono hu (show L + b.depth ≤ L + max a.depth b.depth by omega))
      rw [Order.ranks, Order.depth, List.flatMap_append, List.map_append, ← Nat.add_assoc]
      exact this

end

/-- exact sums do not depend on the order -/
theorem reduce_exact {κ M : Type} [AddCommMonoid M] {locals : List (KMap κ M)} (o : Order)
    (ho : ∀ r ∈ o.ranks, r < locals.length) :
    sumOrder o locals = .ok ((o.ranks.flatMap (share locals)).map Prod.snd).sum := by
  induction o with
  | rank r =>
    have hr : r < locals.length := ho r (by simp [Order.ranks])
    simp only [sumOrder, Order.reduce, List.getElem?_map, hr, List.getElem?_eq_getElem, Option.map_some,
      Order.ranks, List.flatMap_cons, List.flatMap_nil, List.append_nil, share, Option.elim_some, id]
    congr 1
    have : ∀ (l : KMap κ M) (c : M), l.foldl (fun s e => s + e.2) c = c + (l.map Prod.snd).sum := by
      intro l
      induction l with
      | nil => simp
      | cons e l ih => intro c; simp [ih, add_assoc]
    simp [localSum, this]
  | join a b iha ihb =>
    have e1 := iha fun r hr => ho r (by simp [Order.ranks, hr])
    have e2 := ihb fun r hr => ho r (by simp [Order.ranks, hr])
    unfold sumOrder at *
    rw [Order.reduce, e1, e2]
    simp [Order.ranks]

/-! ## Binary rounding -/

theorem nearest_eq {p : ℕ} {x : ℝ} {e : ℤ} (h1 : (2 : ℝ) ^ e ≤ |x|) (h2 : |x| < 2 ^ (e + 1)) :
    nearest p x = (round (x / 2 ^ (e - p + 1)) : ℝ) * 2 ^ (e - p + 1) := by
  have hx : 0 < |x| := lt_of_lt_of_le (zpow_pos two_pos _) h1
  have : Int.log 2 |x| = e := by
    apply le_antisymm
    · have := (Int.lt_zpow_iff_log_lt (b := 2) one_lt_two hx (x := e + 1)).1 (by exact_mod_cast h2)
      omega
    · exact (Int.zpow_le_iff_le_log (b := 2) one_lt_two hx).1 (by exact_mod_cast h1)
  rw [nearest, this]

theorem nearestAdd_rounded (p : ℕ) : Rounded ((1 / 2) ^ p) (nearestAdd p) := by
  intro a b
  rw [nearestAdd]
  generalize a + b = x
  rcases eq_or_ne x 0 with rfl | hx
  · simp [nearest]
  have hx' : 0 < |x| := abs_pos.2 hx
  have h1 : (2 : ℝ) ^ Int.log 2 |x| ≤ |x| := by
    have := Int.zpow_log_le_self (b := 2) one_lt_two hx'
    exact_mod_cast this
  rw [nearest]
  set s : ℝ := 2 ^ (Int.log 2 |x| - p + 1) with hs
  have hs0 : 0 < s := zpow_pos two_pos _
  have h2 : |x / s - round (x / s)| ≤ 1 / 2 := abs_sub_round _
  have h3 : (round (x / s) : ℝ) * s - x = -(x / s - round (x / s)) * s := by field_simp; ring
  rw [h3, abs_mul, abs_neg, abs_of_pos hs0]
  have h4 : s = 2 * ((1 / 2) ^ p * 2 ^ Int.log 2 |x|) := by
    rw [hs, zpow_add₀ two_ne_zero, zpow_sub₀ two_ne_zero, zpow_natCast]
    rw [one_div, inv_pow, zpow_one]
    ring
  calc |x / s - round (x / s)| * s ≤ 1 / 2 * s := by gcongr
    _ = (1 / 2) ^ p * 2 ^ Int.log 2 |x| := by rw [h4]; ring
    _ ≤ _ := by gcongr

end Nlcg
