import Verif.Model.Overlap
import Verif.Proofs.LinAlg
import Mathlib.LinearAlgebra.Matrix.NonsingularInverse
import Mathlib.Tactic.FinCases
import Mathlib.Analysis.Complex.Norm

/-!
# Properties of the overlap check and of the iteration over an operator
-/

namespace Nlcg
open Matrix

variable {K : ℕ} {n b : Fin K → ℕ}

/-! ## C77 -/

theorem innerhTr_self_re {m l : ℕ} (A : Mat m l) : (innerhTr A A).re = ∑ i, ∑ j, ‖A i j‖ ^ 2 := by
  simp only [innerhTr, Complex.re_sum]
  refine Finset.sum_congr rfl fun i _ => Finset.sum_congr rfl fun j _ => ?_
  rw [Complex.star_def, Complex.mul_conj, Complex.ofReal_re, Complex.normSq_eq_norm_sq]

/-- C77: the number printed after `** check: S(S_inv(x)), error:` is the distance between the orbitals of
this rank and `Sinv(S(X))`. -/
theorem C77_error (S Sinv : (k : Fin K) → Mat (n k) (b k) → Mat (n k) (b k))
    (X : (k : Fin K) → Mat (n k) (b k)) :
    (checkOverlap S Sinv X).error = √(∑ k, ∑ i, ∑ j, ‖X k i j - Sinv k (S k (X k)) i j‖ ^ 2) := by
  simp only [checkOverlap, l2normK, Complex.re_sum, innerhTr_self_re]
  congr 1
  refine Finset.sum_congr rfl fun k _ => Finset.sum_congr rfl fun i _ => Finset.sum_congr rfl fun j _ => ?_
  congr 2
  simp [addM, sub_eq_add_neg]

/-- C77: the other printed numbers are the norms of the orbitals, of `S(X)` and of `Sinv(X)` on this rank, and
the trace of `X^H S(X)`. -/
theorem C77_norms (S Sinv : (k : Fin K) → Mat (n k) (b k) → Mat (n k) (b k)) (X : (k : Fin K) → Mat (n k) (b k)) :
    (checkOverlap S Sinv X).normX = √(∑ k, ∑ i, ∑ j, ‖X k i j‖ ^ 2) ∧
    (checkOverlap S Sinv X).normSX = √(∑ k, ∑ i, ∑ j, ‖S k (X k) i j‖ ^ 2) ∧
    (checkOverlap S Sinv X).normSinvX = √(∑ k, ∑ i, ∑ j, ‖Sinv k (X k) i j‖ ^ 2) ∧
    (checkOverlap S Sinv X).trXSX = (∑ k, ((X k)ᴴ * S k (X k)).trace).re := by
  simp only [checkOverlap, l2normK, Complex.re_sum, innerhTr_self_re, true_and]
  refine Finset.sum_congr rfl fun k _ => ?_
  rw [innerhTr_re, rdot_comm, ← innerhTr_re, innerhTr_eq]

/-- C77, the part that holds: the printed error is zero exactly if `Sinv` undoes `S` on the orbitals
of this rank. The label promises the other order, see `C77_not_as_labelled`. -/
theorem C77_zero_partial (S Sinv : (k : Fin K) → Mat (n k) (b k) → Mat (n k) (b k))
    (X : (k : Fin K) → Mat (n k) (b k)) :
    (checkOverlap S Sinv X).error = 0 ↔ ∀ k, Sinv k (S k (X k)) = X k := by
  rw [C77_error, Real.sqrt_eq_zero (by positivity), Finset.sum_eq_zero_iff_of_nonneg fun _ _ => by positivity]
  refine ⟨fun h k => ?_, fun h k _ => ?_⟩
  · have h1 := (Finset.sum_eq_zero_iff_of_nonneg fun _ _ => by positivity).1 (h k (Finset.mem_univ k))
    ext i j
    have h2 := (Finset.sum_eq_zero_iff_of_nonneg fun _ _ => by positivity).1 (h1 i (Finset.mem_univ i)) j
      (Finset.mem_univ j)
    have h3 : X k i j - Sinv k (S k (X k)) i j = 0 := by simpa using h2
    exact (sub_eq_zero.1 h3).symm
  · simp [h k]

/-- the overlap of the witness -/
def witS : Mat 2 2 := !![1, 0; 1, 0]

/-- its partner in the witness -/
def witSinv : Mat 2 2 := !![1, 0; 0, 0]

/-- the orbital of the witness -/
def witX : Mat 2 1 := !![1; 0]

/-- C77 is false: the check reports error zero although `S(S_inv(x))` differs from `x`, and reports an
error although `S(S_inv(x)) = x`, for linear operators. -/
theorem C77_not_as_labelled :
    ((checkOverlap (K := 1) (n := fun _ => 2) (b := fun _ => 1) (fun _ x => witS * x) (fun _ x => witSinv * x)
        fun _ => witX).error = 0 ∧ witS * (witSinv * witX) ≠ witX) ∧
    ((checkOverlap (K := 1) (n := fun _ => 2) (b := fun _ => 1) (fun _ x => witSinv * x) (fun _ x => witS * x)
        fun _ => witX).error ≠ 0 ∧ witSinv * (witS * witX) = witX) := by
  have h1 : witSinv * (witS * witX) = witX := by
    ext i j; fin_cases i <;> fin_cases j <;> simp [witS, witSinv, witX, Matrix.mul_apply, Fin.sum_univ_two]
  have h2 : witS * (witSinv * witX) ≠ witX := by
    intro h
    have := congrFun (congrFun h 1) 0
    simp [witS, witSinv, witX, Matrix.mul_apply, Fin.sum_univ_two] at this
  refine ⟨⟨?_, h2⟩, ?_, h1⟩
  · rw [C77_zero_partial]
    exact fun _ => h1
  · rw [Ne, C77_zero_partial]
    exact fun h => h2 (h 0)

/-- C77: for linear operators the order does not matter if the check is repeated for all orbitals. -/
theorem C77_all_orbitals (hb : ∀ k, 0 < b k) (S Sinv : (k : Fin K) → Mat (n k) (n k)) :
    (∀ X : (k : Fin K) → Mat (n k) (b k),
      (checkOverlap (fun k x => S k * x) (fun k x => Sinv k * x) X).error = 0) ↔ ∀ k, S k * Sinv k = 1 := by
  simp only [C77_zero_partial]
  refine ⟨fun h k => ?_, fun h X k => ?_⟩
  · rw [mul_eq_one_comm]
    have h0 : ∀ x : Mat (n k) (b k), Sinv k * S k * x = x := fun x => by
      have := h (Function.update (fun l => (0 : Mat (n l) (b l))) k x) k
      rwa [Function.update_self, ← Matrix.mul_assoc] at this
    ext i j
    have h1 := congrFun (congrFun (h0 (Matrix.of fun i' _ => if i' = j then 1 else 0)) i) ⟨0, hb k⟩
    simpa [Matrix.mul_apply, Matrix.one_apply] using h1
  · rw [← Matrix.mul_assoc, mul_eq_one_comm.1 (h k), Matrix.one_mul]

/-- The hypothesis of `C77_all_orbitals` and both sides can hold for an operator that is not trivial. -/
example : ∃ S Sinv : Mat 2 2, S ≠ 1 ∧ S * Sinv = 1 :=
  ⟨!![2, 0; 0, 1], !![1/2, 0; 0, 1], fun h => by simpa using congrFun (congrFun h 0) 0, by
    ext i j; fin_cases i <;> fin_cases j <;> simp [Matrix.mul_apply, Fin.sum_univ_two]⟩

/-! ## C78 -/

variable {κ α : Type}

theorem opLoop_ub (keys : List κ) (obj : κ → α) : ∀ (fuel : ℕ) (it : OpIter κ α) (seen : List (κ × α)),
    it.pos < keys.length → keys.length ≤ it.pos + fuel → OpIter.loop keys obj fuel it seen = .ub
  | 0, it, _, h, h' => by omega
  | fuel + 1, it, seen, h, h' => by
    rw [OpIter.loop, if_neg (by simp only [OpIter.last]; omega)]
    cases hd : it.deref with
    | ok p =>
      simp only [Res.bind_ok]
      rw [OpIter.next, keyAt]
      by_cases hl : it.pos + 1 < keys.length
      · rw [List.getElem?_eq_getElem hl]
        simp only [Res.bind_ok, Res.pure_eq]
        exact opLoop_ub keys obj fuel _ _ hl (by simp only; omega)
      · rw [List.getElem?_eq_none (by omega)]
        rfl
    | ub => rfl
    | throw e => simp only [OpIter.deref] at hd; split at hd <;> cases hd
    | abort => simp only [OpIter.deref] at hd; split at hd <;> cases hd

/-- C78 is false: a range loop over the k-points of an operator is undefined for every list of keys:
the step after the last element, and the start on an empty list, read outside the list. -/
theorem C78_never_defined (keys : List κ) (obj : κ → α) (fuel : ℕ) (hf : keys.length ≤ fuel) :
    traverseOp keys obj fuel = .ub := by
  rw [traverseOp, OpIter.first, keyAt]
  cases keys with
  | nil => rfl
  | cons k ks =>
    simp only [List.getElem?_cons_zero, Res.bind_ok, Res.pure_eq]
    exact opLoop_ub _ obj fuel _ _ (by simp) (by simpa using hf)

/-- C78, the part that holds: as long as the iteration stays in front of the last element, it visits
the keys in order, each with the operator of that key. -/
theorem C78_prefix_partial (keys : List κ) (obj : κ → α) (m : ℕ) (hm : m < keys.length) :
    ∃ it, OpIter.advance keys obj m = .ok it ∧ it.deref = .ok (keys[m], obj keys[m]) ∧
      it.pos ≠ (OpIter.last (α := α) keys).pos := by
  induction m with
  | zero =>
    refine ⟨_, by rw [OpIter.advance, OpIter.first, keyAt, List.getElem?_eq_getElem hm]; rfl, rfl, ?_⟩
    simp only [OpIter.last]; omega
  | succ m ih =>
    obtain ⟨it, h1, h2, -⟩ := ih (by omega)
    have hp : it.pos = m := by
      have : ∀ (m : ℕ) (it : OpIter κ α), OpIter.advance keys obj m = .ok it → it.pos = m := by
        intro m
        induction m with
        | zero =>
          intro it h
          rw [OpIter.advance, OpIter.first, Res.bind_eq_ok] at h
          obtain ⟨k, -, h⟩ := h
          cases h; rfl
        | succ m ih =>
          intro it h
          rw [OpIter.advance, Res.bind_eq_ok] at h
          obtain ⟨it', h', h⟩ := h
          rw [OpIter.next, Res.bind_eq_ok] at h
          obtain ⟨k, -, h⟩ := h
          cases h
          simp [ih it' h']
      exact this m it h1
    refine ⟨_, by rw [OpIter.advance, h1, Res.bind_ok, OpIter.next, hp, keyAt, List.getElem?_eq_getElem hm]; rfl,
      rfl, ?_⟩
    simp only [OpIter.last]; omega

/-- Two k-points: both can be reached, but the loop is undefined. -/
example : traverseOp [(0, 0), (1, 0)] (fun k : ℤ × ℤ => k.1) 5 = .ub ∧
    ∃ it, OpIter.advance [(0, 0), (1, 0)] (fun k : ℤ × ℤ => k.1) 1 = .ok it ∧ it.deref = .ok ((1, 0), 1) :=
  ⟨C78_never_defined _ _ _ (by decide), by
    obtain ⟨it, h, h', -⟩ := C78_prefix_partial [(0, 0), (1, 0)] (fun k : ℤ × ℤ => k.1) 1 (by decide)
    exact ⟨it, h, h'⟩⟩

end Nlcg
