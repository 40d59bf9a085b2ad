import Verif.Proofs.Reduce
import Mathlib.Algebra.Order.Floor.Ring

/-!
# C88: sums over ranks in finite precision

Slope, norm of the gradient, entropy and the two numbers of the pseudo-Hamiltonian gradient are sums over all
k-points: each rank adds up its own, then MPI adds up the ranks in an order of its choice.
-/

namespace Nlcg
open Spec

section
variable {κ κ' : Type} {u : ℝ} {add : ℝ → ℝ → ℝ}

/-- **C88.** With an addition that is off by at most a factor `1 ± u`, the sum computed on any number of ranks and in
any order differs from the exact sum by at most `(1 + u)^(L + d) - 1` times the sum of the absolute values: `L` is the
largest number of k-points on a rank and `d` the longest chain of additions inside MPI. -/
theorem C88_rounded_sum (hu : 0 ≤ u) (hadd : Rounded u add) {locals : List (KMap κ (Fl add))} {o : Order}
    (ho : Covers o locals.length) {L : ℕ} (hL : ∀ l ∈ locals, l.length ≤ L) :
    ∃ r, sumOrder o locals = .ok r ∧
      |r.val - (contributions locals).sum|
        ≤ ((1 + u) ^ (L + o.depth) - 1) * ((contributions locals).map abs).sum := by
  obtain ⟨r, h1, h2⟩ := reduce_approx hu hadd hL o (covers_lt ho)
  exact ⟨r, h1, h2.perm ((flatMap_covers ho).map _)⟩

/-- **C88.** So two runs with the same k-points on different ranks, or with another MPI library, get values that
differ by rounding only. -/
theorem C88_distributions (hu : 0 ≤ u) (hadd : Rounded u add) {locals : List (KMap κ (Fl add))}
    {locals' : List (KMap κ' (Fl add))} {o o' : Order} (ho : Covers o locals.length) (ho' : Covers o' locals'.length)
    (hc : (contributions locals).Perm (contributions locals')) {L : ℕ} (hL : ∀ l ∈ locals, l.length ≤ L)
    (hL' : ∀ l ∈ locals', l.length ≤ L) {d : ℕ} (hd : o.depth ≤ d) (hd' : o'.depth ≤ d) :
    ∃ r r', sumOrder o locals = .ok r ∧ sumOrder o' locals' = .ok r' ∧
      |r.val - r'.val| ≤ 2 * ((1 + u) ^ (L + d) - 1) * ((contributions locals).map abs).sum := by
  obtain ⟨r, h1, h2⟩ := reduce_approx hu hadd hL o (covers_lt ho)
  obtain ⟨r', h1', h2'⟩ := reduce_approx hu hadd hL' o' (covers_lt ho')
  refine ⟨r, r', h1, h1', ?_⟩
  have e := (h2.perm ((flatMap_covers ho).map _)).mono hu (show L + o.depth ≤ L + d by omega)
  have e' := (h2'.perm (((flatMap_covers ho').map _).trans hc.symm)).mono hu (show L + o'.depth ≤ L + d by omega)
  rw [Approx] at e e'
  have := abs_sub_le r.val (contributions locals).sum r'.val
  rw [abs_sub_comm (contributions locals).sum] at this
  rw [contributions] at *
  linarith

/-- **C88.** If the exact slope is farther from the tolerance than that, the decision whether the run has converged is
the same on any number of ranks: it is the one the exact slope gives. -/
theorem C88_same_decision (hu : 0 ≤ u) (hadd : Rounded u add) {locals : List (KMap κ (Fl add))} {o : Order}
    (ho : Covers o locals.length) {L : ℕ} (hL : ∀ l ∈ locals, l.length ≤ L) {tol : ℝ}
    (hfar : ((1 + u) ^ (L + o.depth) - 1) * ((contributions locals).map abs).sum
      < |(|(contributions locals).sum| - tol)|) :
    ∃ r, sumOrder o locals = .ok r ∧ (|r.val| < tol ↔ |(contributions locals).sum| < tol) := by
  obtain ⟨r, h1, h2⟩ := C88_rounded_sum hu hadd ho hL
  refine ⟨r, h1, ?_⟩
  have h3 := lt_of_le_of_lt ((abs_abs_sub_abs_le_abs_sub r.val (contributions locals).sum).trans h2) hfar
  rw [abs_lt] at h3
  rcases le_or_gt tol |(contributions locals).sum| with ht | ht
  · rw [abs_of_nonneg (sub_nonneg.2 ht)] at h3
    constructor <;> intro h <;> linarith
  · rw [abs_of_neg (sub_neg.2 ht)] at h3
    constructor <;> intro h <;> linarith

end

/-- **C88.** With exact sums the order does not matter at all: it is the sum over all k-points. -/
theorem C88_exact {κ M : Type} [AddCommMonoid M] {locals : List (KMap κ M)} {o : Order}
    (ho : Covers o locals.length) : sumOrder o locals = .ok (locals.flatten.map Prod.snd).sum := by
  rw [reduce_exact o (covers_lt ho), ((flatMap_covers ho).map Prod.snd).sum_eq]

/-- the bound applies to binary floating point numbers of any precision -/
theorem C88_binary (p : ℕ) : Rounded ((1 / 2) ^ p) (nearestAdd p) := nearestAdd_rounded p

/-- doubles -/
abbrev Dbl := Fl (nearestAdd 53)

noncomputable def tiny : ℝ := 1 / 2 ^ 54

/-- five k-points with the contributions `1`, `2^-54`, `2^-54`, `2^-54`, `2^-54` on one rank -/
noncomputable def fiveTogether : List (KMap ℕ Dbl) := [[(0, ⟨1⟩), (1, ⟨tiny⟩), (2, ⟨tiny⟩), (3, ⟨tiny⟩), (4, ⟨tiny⟩)]]

/-- the same on two ranks -/
noncomputable def fiveApart : List (KMap ℕ Dbl) := [[(0, ⟨1⟩)], [(1, ⟨tiny⟩), (2, ⟨tiny⟩), (3, ⟨tiny⟩), (4, ⟨tiny⟩)]]

/-- a sum of doubles, given the exponent of the result and the digits -/
theorem add_double {a b : ℝ} (e m : ℤ) (h1 : (2 : ℝ) ^ e ≤ |a + b|) (h2 : |a + b| < 2 ^ (e + 1))
    (h3 : (m : ℝ) ≤ (a + b) / 2 ^ (e - 52) + 1 / 2) (h4 : (a + b) / 2 ^ (e - 52) + 1 / 2 < m + 1) :
    nearestAdd 53 a b = m * 2 ^ (e - 52) := by
  rw [nearestAdd, nearest_eq h1 h2]
  have he : e - (53 : ℕ) + 1 = e - 52 := by push_cast; ring
  have : round ((a + b) / 2 ^ (e - 52)) = m := by
    rw [round_eq, Int.floor_eq_iff]
    exact ⟨h3, h4⟩
  rw [he, this]

theorem five_together : sumOrder (.rank 0) fiveTogether = .ok ⟨1⟩ := by
  have a1 : nearestAdd 53 0 1 = 1 := by
    rw [add_double 0 (2 ^ 52)] <;> norm_num
  have a2 : nearestAdd 53 1 tiny = 1 := by
    rw [add_double 0 (2 ^ 52)] <;> norm_num [tiny, abs_of_pos]
  show Res.ok (Fl.mk _) = _
  simp only [Res.ok.injEq, Fl.mk.injEq]
  show nearestAdd 53 (nearestAdd 53 (nearestAdd 53 (nearestAdd 53 (nearestAdd 53 0 1) tiny) tiny) tiny) tiny = 1
  rw [a1, a2, a2, a2, a2]

theorem five_apart : sumOrder (.join (.rank 0) (.rank 1)) fiveApart = .ok ⟨1 + 1 / 2 ^ 52⟩ := by
  have a1 : nearestAdd 53 0 1 = 1 := by
    rw [add_double 0 (2 ^ 52)] <;> norm_num
  have a2 : nearestAdd 53 0 tiny = tiny := by
    rw [add_double (-54) (2 ^ 52)] <;> norm_num [tiny, abs_of_pos]
  have a3 : nearestAdd 53 tiny tiny = 2 * tiny := by
    rw [add_double (-53) (2 ^ 52)] <;> norm_num [tiny, abs_of_pos]
  have a4 : nearestAdd 53 (2 * tiny) tiny = 3 * tiny := by
    rw [add_double (-53) (3 * 2 ^ 51)] <;> norm_num [tiny, abs_of_pos]
  have a5 : nearestAdd 53 (3 * tiny) tiny = 4 * tiny := by
    rw [add_double (-52) (2 ^ 52)] <;> norm_num [tiny, abs_of_pos]
  have a6 : nearestAdd 53 1 (4 * tiny) = 1 + 1 / 2 ^ 52 := by
    rw [add_double 0 (2 ^ 52 + 1)] <;> norm_num [tiny, abs_of_pos]
  show Res.ok (Fl.mk _) = _
  simp only [Res.ok.injEq, Fl.mk.injEq]
  show nearestAdd 53 (nearestAdd 53 0 1)
    (nearestAdd 53 (nearestAdd 53 (nearestAdd 53 (nearestAdd 53 0 tiny) tiny) tiny) tiny) = _
  rw [a1, a2, a3, a4, a5, a6]

/-- **C88 (limit).** Results are not the same to the last bit, and decisions can differ: with doubles, the same
contributions to the slope on one and on two ranks are below and above the same tolerance. -/
theorem C88_not_bitwise : ∃ (locals locals' : List (KMap ℕ Dbl)) (o o' : Order) (r r' : Dbl) (tol : ℝ),
    Covers o locals.length ∧ Covers o' locals'.length ∧ contributions locals = contributions locals' ∧
    sumOrder o locals = .ok r ∧ sumOrder o' locals' = .ok r' ∧ |r.val| < tol ∧ ¬ |r'.val| < tol := by
  refine ⟨fiveTogether, fiveApart, _, _, _, _, 1 + 1 / 2 ^ 52, ?_, ?_, rfl, five_together, five_apart, ?_, ?_⟩
  · exact List.Perm.refl _
  · exact List.Perm.refl _
  · norm_num
  · norm_num [abs_of_pos]

/-- far enough from the tolerance: five k-points against the tolerance two -/
example : ∃ r, sumOrder (.rank 0) fiveTogether = .ok r ∧ (|r.val| < 2 ↔ |(contributions fiveTogether).sum| < 2) :=
  C88_same_decision (locals := fiveTogether) (o := .rank 0) (by positivity) (C88_binary 53)
    (show List.Perm [0] [0] from List.Perm.refl _) (L := 5) (by simp [fiveTogether])
    (by norm_num [contributions, fiveTogether, tiny, Order.depth, abs_of_pos])

/-- two distributions that meet the hypotheses: the bound for them is about `2^-49` -/
example : ∃ r r', sumOrder (.rank 0) fiveTogether = .ok r ∧ sumOrder (.join (.rank 1) (.rank 0)) fiveApart = .ok r' ∧
    |r.val - r'.val| ≤ 2 * ((1 + (1 / 2) ^ 53) ^ (5 + 1) - 1) * ((contributions fiveTogether).map abs).sum :=
  C88_distributions (locals := fiveTogether) (locals' := fiveApart) (o := .rank 0) (o' := .join (.rank 1) (.rank 0))
    (d := 1) (by positivity) (C88_binary 53) (show List.Perm [0] [0] from List.Perm.refl _)
    (show List.Perm [1, 0] [0, 1] from List.Perm.swap _ _ _) (List.Perm.refl _)
    (by simp [fiveTogether]) (by simp [fiveApart]) (by simp [Order.depth]) (by simp [Order.depth])

end Nlcg
