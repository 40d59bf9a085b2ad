import Verif.Proofs.Memory
import Verif.Model.LinAlg
import Mathlib.LinearAlgebra.Matrix.Notation
import Mathlib.Tactic.FinCases

/-!
# Kernels on matrices in memory (`C42`-`C45`, `C47`)
-/

namespace Nlcg
open Spec Matrix

section products
variable {R : Type} [CommRing R] [StarRing R] [DecidableEq R]
variable {m : Mem R} {vC vA vB : MView} {r a b : ℕ}

/-- **C44**, `inner`: `C <- alpha A^H B + beta C`, for all sizes and leading dimensions; nothing outside
`C` changes and no address outside the matrices is touched. -/
theorem C44_inner {A : Matrix (Fin r) (Fin a) R} {B : Matrix (Fin r) (Fin b) R}
    {C : Matrix (Fin a) (Fin b) R} (alpha beta : R)
    (cA : ColMajor vA) (cB : ColMajor vB) (cC : ColMajor vC)
    (hA : Holds m vA A) (hB : Holds m vB B) (hC : Holds m vC C)
    (dA : Disjoint (cells vA) (cells vC)) (dB : Disjoint (cells vB) (cells vC)) :
    Computes (innerK vC vA vB alpha beta) m vC (alpha • (Aᴴ * B) + beta • C) := by
  obtain ⟨ar, ac, _⟩ := id hA
  obtain ⟨br, bc, _⟩ := id hB
  obtain ⟨cr, cc, _⟩ := id hC
  subst ar cr cc
  unfold innerK
  rw [if_pos (by simp [cA.single, cB.single, cC.single])]
  simp only [cA.unit, cB.unit, cC.unit, ne_eq, not_true_eq_false, or_self, if_false, ac, bc]
  refine Computes.congr (gemm_loop cC ?_ ?_ (fun i l => star (ext A l i)) (fun l j => ext B l j)
    (fun i j => ext C i j) ?_ ?_ ?_) ?_
  · have := cA.lead; have := cA.pos; simp; omega
  · have := cB.lead; have := cB.pos; simp; omega
  · intro i l hi hl m' hs
    rw [hA.opElem_H cA.unit dA hs hi hl, ext_eq A hl hi]
  · intro l j hl hj m' hs
    rw [hB.opElem_N cB.unit dB hs hl hj, ext_eq B hl hj]
  · intro i j hi hj
    exact ⟨_, hC.ext_at hi hj, fun _ => rfl⟩
  · intro i j
    by_cases hb : beta = 0
    · simp [hb, sumL_eq, Matrix.mul_apply]
    · simp [hb, sumL_eq, Matrix.mul_apply]

/-- **C44**, `transform`: `C <- beta C + alpha A B`. -/
theorem C44_transform {A : Matrix (Fin r) (Fin a) R} {B : Matrix (Fin a) (Fin b) R}
    {C : Matrix (Fin r) (Fin b) R} (alpha beta : R)
    (cA : ColMajor vA) (cB : ColMajor vB) (cC : ColMajor vC)
    (hA : Holds m vA A) (hB : Holds m vB B) (hC : Holds m vC C)
    (dA : Disjoint (cells vA) (cells vC)) (dB : Disjoint (cells vB) (cells vC)) :
    Computes (transformK vC beta alpha vA vB) m vC (beta • C + alpha • (A * B)) := by
  obtain ⟨ar, ac, _⟩ := id hA
  obtain ⟨br, bc, _⟩ := id hB
  obtain ⟨cr, cc, _⟩ := id hC
  subst ac cr cc
  unfold transformK
  rw [if_pos (by simp [cA.single, cB.single, cC.single])]
  simp only [cA.unit, cB.unit, cC.unit, ne_eq, not_true_eq_false, or_self, if_false, ar, bc]
  refine Computes.congr (gemm_loop cC ?_ ?_ (fun i l => ext A i l) (fun l j => ext B l j)
    (fun i j => ext C i j) ?_ ?_ ?_) ?_
  · have := cA.lead; have := cA.pos; simp; omega
  · have := cB.lead; have := cB.pos; simp; omega
  · intro i l hi hl m' hs
    rw [hA.opElem_N cA.unit dA hs hi hl, ext_eq A hi hl]
  · intro l j hl hj m' hs
    rw [hB.opElem_N cB.unit dB hs hl hj, ext_eq B hl hj]
  · intro i j hi hj
    exact ⟨_, hC.ext_at hi hj, fun _ => rfl⟩
  · intro i j
    by_cases hb : beta = 0
    · simp [hb, sumL_eq, Matrix.mul_apply]
    · simp [hb, sumL_eq, Matrix.mul_apply, add_comm]

/-- **C44**, `outer`, for square matrices of one size: `C <- alpha A B^H + beta C`. Other sizes:
`C44_not_outer`. -/
theorem C44_outer_partial {A B C : Matrix (Fin a) (Fin a) R} (alpha beta : R)
    (cA : ColMajor vA) (cB : ColMajor vB) (cC : ColMajor vC)
    (hA : Holds m vA A) (hB : Holds m vB B) (hC : Holds m vC C)
    (dA : Disjoint (cells vA) (cells vC)) (dB : Disjoint (cells vB) (cells vC)) :
    Computes (outerK vC vA vB alpha beta) m vC (alpha • (A * Bᴴ) + beta • C) := by
  obtain ⟨ar, ac, _⟩ := id hA
  obtain ⟨br, bc, _⟩ := id hB
  obtain ⟨cr, cc, _⟩ := id hC
  unfold outerK
  rw [if_pos (by simp [cA.single, cB.single, cC.single])]
  simp only [cA.unit, cB.unit, cC.unit, ne_eq, not_true_eq_false, or_self, if_false, ar, ac, bc]
  subst cr
  have key := gemm_loop (ta := .N) (tb := .H) (k := vC.rows) (A := vA.data) (lda := vA.s1) (B := vB.data)
    (ldb := vB.s1) (alpha := alpha) (beta := beta) (m := m) cC
    (by have := cA.lead; have := cA.pos; simp; omega)
    (by have := cB.lead; have := cB.pos; simp; omega)
    (fun i l => ext A i l) (fun l j => star (ext B j l)) (fun i j => ext C i j)
    (by
      intro i l hi hl m' hs
      rw [hA.opElem_N cA.unit dA hs hi hl, ext_eq A hi hl])
    (by
      intro l j hl hj m' hs
      rw [cc] at hj
      rw [hB.opElem_H cB.unit dB hs hl hj, ext_eq B hj hl])
    (by
      intro i j hi hj
      exact ⟨_, hC.ext_at hi hj, fun _ => rfl⟩)
  rw [cc] at key
  refine Computes.congr key ?_
  intro i j
  by_cases hb : beta = 0
  · simp [hb, sumL_eq, Matrix.mul_apply]
  · simp [hb, sumL_eq, Matrix.mul_apply]

omit [StarRing R] [DecidableEq R] in
/-- **C44**, `add`: `C <- beta C + alpha A`, in whatever order the threads proceed. -/
theorem C44_add (sch : Sched) {A C : Matrix (Fin r) (Fin a) R} (alpha beta : R)
    (cA : ColMajor vA) (cC : ColMajor vC) (hA : Holds m vA A) (hC : Holds m vC C)
    (hd : Compatible vC vA) :
    Computes (addK sch vC vA alpha beta) m vC (beta • C + alpha • A) := by
  obtain ⟨cr, cc, _⟩ := id hC
  subst cr cc
  unfold addK geam
  rw [if_pos (by simp [cA.single, cC.single])]
  simp only [cA.unit, cC.unit, ne_eq, not_true_eq_false, or_self, if_false, hA.1]
  refine Computes.congr (elementwise (m := m) (src := vA) sch cC.inj hd hA.1 hA.2.1
    (fun p => alpha * ext A p.1 p.2 + beta * ext C p.1 p.2) _ ?_) (by simp [add_comm])
  intro p h1 h2 m' _ e1 e2
  have hx := e2.trans (hC.ext_at h1 h2)
  rw [colAddr_eq cA.unit, colAddr_eq cC.unit,
    load_bind (e1.trans (hA.ext_at (hA.1.symm ▸ h1) (hA.2.1.symm ▸ h2))), load_bind hx, store_ok hx]

omit [StarRing R] in
/-- **C44**, `_add` and `scale` by a number: `dst <- beta dst + alpha src`. -/
theorem C44_scale (sch : Sched) {S D : Matrix (Fin r) (Fin a) R} (alpha beta : R) {dst src : MView}
    (hu : src.s0 = 1) (hd : Distinct dst) (hS : Holds m src S) (hD : Holds m dst D)
    (hc : Compatible dst src) :
    Computes (scaleK sch dst src alpha beta) m dst (beta • D + alpha • S) ∧
    Computes (addLoopK sch dst src alpha beta) m dst (beta • D + alpha • S) := by
  have key : Computes (axpbyLoop sch dst src src.rows src.cols alpha beta) m dst
      (beta • D + alpha • S) := by
    by_cases hb : beta = 0
    · subst hb
      exact (axpby_zero sch hd hc hS hD.1 hD.2.1 hD.accessible alpha).congr (by simp)
    · exact (axpby_nonzero sch hd hc hS hD alpha hb).congr (by simp [mul_comm])
  refine ⟨?_, ?_⟩
  · rw [scaleK, if_pos hu]
    exact key
  · rw [addLoopK, if_neg (by rw [hS.1, hS.2.1, hD.1, hD.2.1]; simp)]
    exact key

omit [StarRing R] in
/-- **C44**, `scale` by a vector: `dst <- beta dst + alpha src diag(x)`. -/
theorem C44_scale_columns (sch : Sched) {S D : Matrix (Fin r) (Fin a) R} {x : Fin a → R} (alpha beta : R)
    {dst src : MView} {xa : ℕ} (hu : src.s0 = 1) (hd : Distinct dst) (hS : Holds m src S)
    (hD : Holds m dst D) (hx : HoldsVec m xa x) (hc : Compatible dst src)
    (hxd : ∀ j : Fin a, xa + j ∉ cells dst) :
    Computes (scaleColsK sch dst src xa alpha beta) m dst
      (beta • D + alpha • (S * Matrix.diagonal x)) := by
  obtain ⟨dr, dc, _⟩ := id hD
  subst dr dc
  unfold scaleColsK
  simp only [hu, if_true, hS.1, hS.2.1]
  have load_x : ∀ p : ℕ × ℕ, ∀ h2 : p.2 < dst.cols, ∀ m' : Mem R, SameOutside (cells dst) m m' →
      m' (xa + p.2) = some (x ⟨p.2, h2⟩) :=
    fun p h2 m' hs => (hs _ (hxd ⟨p.2, h2⟩)).trans (hx ⟨p.2, h2⟩)
  by_cases hb : beta = 0
  · rw [if_pos hb]
    refine Computes.congr (elementwise (m := m) (src := src) sch hd hc hS.1 hS.2.1
      (fun p => alpha * (if h : p.2 < dst.cols then x ⟨p.2, h⟩ else 0) * ext S p.1 p.2) _ ?_)
      (by intro i j; simp [hb, Matrix.mul_diagonal]; ring)
    intro p h1 h2 m' hs e1 e2
    rw [addr_eq, addr_eq, load_bind (load_x p h2 m' hs),
      load_bind (e1.trans (hS.ext_at (hS.1.symm ▸ h1) (hS.2.1.symm ▸ h2))),
      store_ok (e2.trans (hD.ext_at h1 h2))]
    simp [h2]
  · rw [if_neg hb]
    refine Computes.congr (elementwise (m := m) (src := src) sch hd hc hS.1 hS.2.1
      (fun p => ext D p.1 p.2 * beta + alpha * (if h : p.2 < dst.cols then x ⟨p.2, h⟩ else 0) *
        ext S p.1 p.2) _ ?_)
      (by intro i j; simp [Matrix.mul_diagonal]; ring)
    intro p h1 h2 m' hs e1 e2
    rw [addr_eq, addr_eq, load_bind (e2.trans (hD.ext_at h1 h2)), load_bind (load_x p h2 m' hs),
      load_bind (e1.trans (hS.ext_at (hS.1.symm ▸ h1) (hS.2.1.symm ▸ h2))),
      store_ok (e2.trans (hD.ext_at h1 h2))]
    simp [h2]

end products

/-! ## Two separate matrices of one rank, and non-square `outer` -/

/-- `n` cells at 0, `n` cells at `10` and 4 cells at `20`, all holding 1 -/
def threeBlocks {R : Type} [One R] : Mem R := fun a =>
  if a < 2 ∨ (10 ≤ a ∧ a < 12) ∨ (20 ≤ a ∧ a < 24) then some 1 else none

/-- **C44** fails for `outer` with matrices that are not square: for two columns of length 2, stored
without padding, it reads an address that belongs to none of the matrices. -/
theorem C44_not_outer {R : Type} [CommRing R] [StarRing R] [DecidableEq R] (alpha beta : R) :
    ∃ (m : Mem R) (vA vB vC : MView) (A B : Matrix (Fin 2) (Fin 1) R) (C : Matrix (Fin 2) (Fin 2) R),
      ColMajor vA ∧ ColMajor vB ∧ ColMajor vC ∧ Holds m vA A ∧ Holds m vB B ∧ Holds m vC C ∧
      Disjoint (cells vA) (cells vC) ∧ Disjoint (cells vB) (cells vC) ∧
      outerK vC vA vB alpha beta m = (.ub, m) ∧
      ¬ Computes (outerK vC vA vB alpha beta) m vC (alpha • (A * Bᴴ) + beta • C) := by
  have run : outerK ⟨20, 2, 2, 1, 2, true⟩ ⟨0, 2, 1, 1, 2, true⟩ ⟨10, 2, 1, 1, 2, true⟩ alpha beta
      (threeBlocks : Mem R) = (.ub, threeBlocks) := by
    simp [outerK, gemm, indexPairs, forEach, sumM, opElem, load, threeBlocks, SM.bind_apply]
  refine ⟨threeBlocks, ⟨0, 2, 1, 1, 2, true⟩, ⟨10, 2, 1, 1, 2, true⟩, ⟨20, 2, 2, 1, 2, true⟩,
    fun _ _ => 1, fun _ _ => 1, fun _ _ => 1, ⟨rfl, le_rfl, by decide, rfl⟩, ⟨rfl, le_rfl, by decide, rfl⟩,
    ⟨rfl, le_rfl, by decide, rfl⟩, ⟨rfl, rfl, ?_⟩, ⟨rfl, rfl, ?_⟩, ⟨rfl, rfl, ?_⟩, ?_, ?_, run, ?_⟩
  · intro i j
    fin_cases i <;> simp [threeBlocks]
  · intro i j
    fin_cases i <;> simp [threeBlocks]
  · intro i j
    fin_cases i <;> fin_cases j <;> simp [threeBlocks]
  · rw [Set.disjoint_left]
    rintro _ ⟨i, j, hi, hj, rfl⟩ ⟨i', j', hi', hj', h⟩
    dsimp only at *
    omega
  · rw [Set.disjoint_left]
    rintro _ ⟨i, j, hi, hj, rfl⟩ ⟨i', j', hi', hj', h⟩
    dsimp only at *
    omega
  · rintro ⟨x, m', e, _⟩
    rw [run] at e
    simp at e

/-- The hypotheses of the product theorems hold for padded matrices in one memory: `A` is 2 by 1 at 0 with
leading dimension 3, `B` is 2 by 2 at 10 with leading dimension 2, `C` is 1 by 2 at 20 with leading
dimension 2; afterwards `C` is `A^H B` and the padding of `C` is untouched. -/
example (m : Mem ℂ) (h0 : m 0 = some 1) (h1 : m 1 = some (2 * Complex.I)) (h10 : m 10 = some 1)
    (h11 : m 11 = some 0) (h12 : m 12 = some 3) (h13 : m 13 = some 1) (h20 : m 20 = some 7)
    (h21 : m 21 = some 8) (h22 : m 22 = some 9) [DecidableEq ℂ] :
    ∃ m', innerK ⟨20, 1, 2, 1, 2, true⟩ ⟨0, 2, 1, 1, 3, true⟩ ⟨10, 2, 2, 1, 2, true⟩ 1 0 m = (.ok (), m') ∧
      m' 20 = some 1 ∧ m' 21 = some 8 ∧ m' 22 = some (3 - 2 * Complex.I) := by
  obtain ⟨_, m', e, h, hs⟩ := C44_inner (m := m) (vC := ⟨20, 1, 2, 1, 2, true⟩)
    (vA := ⟨0, 2, 1, 1, 3, true⟩) (vB := ⟨10, 2, 2, 1, 2, true⟩) (A := !![1; 2 * Complex.I])
    (B := !![1, 3; 0, 1]) (C := !![7, 9]) 1 0 ⟨rfl, by decide, by decide, rfl⟩
    ⟨rfl, by decide, by decide, rfl⟩ ⟨rfl, by decide, by decide, rfl⟩
    ⟨rfl, rfl, by intro i j; fin_cases i <;> fin_cases j <;> simpa⟩
    ⟨rfl, rfl, by intro i j; fin_cases i <;> fin_cases j <;> simpa⟩
    ⟨rfl, rfl, by intro i j; fin_cases i <;> fin_cases j <;> simpa⟩
    (by
      rw [Set.disjoint_left]
      rintro _ ⟨i, j, hi, hj, rfl⟩ ⟨i', j', hi', hj', h⟩
      dsimp only at *
      omega)
    (by
      rw [Set.disjoint_left]
      rintro _ ⟨i, j, hi, hj, rfl⟩ ⟨i', j', hi', hj', h⟩
      dsimp only at *
      omega)
  refine ⟨m', e, ?_, ?_, ?_⟩
  · have := h.2.2 0 0
    simpa [Matrix.mul_apply] using this
  · rw [hs 21 ?_, h21]
    rintro ⟨i, j, hi, hj, h⟩
    dsimp only at *
    omega
  · have := h.2.2 0 1
    simp [Matrix.mul_apply] at this
    rw [this, map_ofNat]
    ring_nf

/-! ## Strides that the kernels do not support -/

/-- The kernels refuse matrices that are not stored by columns or that are distributed; memory is not
touched. -/
theorem C44_rejects {α : Type} [Add α] [Mul α] [Zero α] [Star α] [DecidableEq α] (sch : Sched)
    (vC vA vB : MView) (alpha beta : α) (m : Mem α)
    (h : vA.s0 ≠ 1 ∨ vC.s0 ≠ 1 ∨ vA.isLocal = false ∨ vC.isLocal = false) :
    innerK vC vA vB alpha beta m = (.throw .runtimeError, m) ∧
    outerK vC vA vB alpha beta m = (.throw .runtimeError, m) ∧
    transformK vC beta alpha vA vB m = (.throw .runtimeError, m) ∧
    addK sch vC vA alpha beta m = (.throw .runtimeError, m) := by
  unfold innerK outerK transformK addK
  refine ⟨?_, ?_, ?_, ?_⟩ <;> split <;> (try rfl) <;> dsimp only <;> rw [if_pos] <;> (try rfl) <;>
    simp_all <;> grind

/-! ## `beta = 0` -/

section beta
variable {α : Type} [Add α] [Mul α] [Zero α] [Star α] [DecidableEq α]
variable {m : Mem α} {r a b : ℕ}

omit [Star α] in
/-- **C45** for `scale` and `_add`: with `beta = 0` the destination is overwritten whatever it contained.
The scalars obey no laws, so NaN and infinities are included. -/
theorem C45_scale (sch : Sched) {dst src : MView} {S : Matrix (Fin r) (Fin a) α} (alpha : α)
    (hu : src.s0 = 1) (hd : Distinct dst) (hr : dst.rows = r) (hc : dst.cols = a) (hS : Holds m src S)
    (hcomp : Compatible dst src) (hacc : Accessible m dst) :
    Computes (scaleK sch dst src alpha 0) m dst (fun i j => alpha * S i j) ∧
    Computes (addLoopK sch dst src alpha 0) m dst (fun i j => alpha * S i j) := by
  have key := axpby_zero sch hd hcomp hS hr hc hacc alpha
  refine ⟨?_, ?_⟩
  · rw [scaleK, if_pos hu]
    exact key
  · rw [addLoopK, if_neg (by rw [hS.1, hS.2.1, hr, hc]; simp)]
    exact key

omit [Star α] in
/-- **C45** for `scale` by a vector. -/
theorem C45_scale_columns (sch : Sched) {dst src : MView} {S : Matrix (Fin r) (Fin a) α} {x : Fin a → α}
    {xa : ℕ} (alpha : α) (hu : src.s0 = 1) (hd : Distinct dst) (hr : dst.rows = r) (hc : dst.cols = a)
    (hS : Holds m src S) (hx : HoldsVec m xa x) (hcomp : Compatible dst src) (hacc : Accessible m dst)
    (hxd : ∀ j : Fin a, xa + j ∉ cells dst) :
    Computes (scaleColsK sch dst src xa alpha 0) m dst (fun i j => alpha * x j * S i j) := by
  subst hr hc
  unfold scaleColsK
  simp only [hu, if_true, hS.1, hS.2.1]
  refine Computes.congr (elementwise (m := m) (src := src) sch hd hcomp hS.1 hS.2.1
    (fun p => alpha * (if h : p.2 < dst.cols then x ⟨p.2, h⟩ else 0) * ext S p.1 p.2) _ ?_)
    (by intro i j; simp)
  intro p h1 h2 m' hs e1 e2
  obtain ⟨y, hy⟩ := hacc _ (mem_cells h1 h2)
  rw [addr_eq, addr_eq, load_bind ((hs _ (hxd ⟨p.2, h2⟩)).trans (hx ⟨p.2, h2⟩)),
    load_bind (e1.trans (hS.ext_at (hS.1.symm ▸ h1) (hS.2.1.symm ▸ h2))), store_ok (e2.trans hy)]
  simp [h2]

/-- **C45** for `inner`, which leaves it to BLAS: the result does not depend on what the
destination contained (two memories that differ only there give the same memory). -/
theorem C45_inner {vC vA vB : MView} {A : Matrix (Fin r) (Fin a) α} {B : Matrix (Fin r) (Fin b) α}
    (alpha : α) (cA : ColMajor vA) (cB : ColMajor vB) (cC : ColMajor vC) (hA : Holds m vA A)
    (hB : Holds m vB B) (hcr : vC.rows = a) (hcc : vC.cols = b)
    (dA : Disjoint (cells vA) (cells vC)) (dB : Disjoint (cells vB) (cells vC)) :
    ∃ C : Matrix (Fin a) (Fin b) α, ∀ m2, SameOutside (cells vC) m m2 → Accessible m2 vC →
      Computes (innerK vC vA vB alpha 0) m2 vC C := by
  obtain ⟨ar, ac, _⟩ := id hA
  obtain ⟨br, bc, _⟩ := id hB
  subst ar hcr hcc
  refine ⟨fun i j => alpha * sumL vA.rows (fun l => star (ext A l i) * ext B l j), fun m2 h2 hacc => ?_⟩
  unfold innerK
  rw [if_pos (by simp [cA.single, cB.single, cC.single])]
  simp only [cA.unit, cB.unit, cC.unit, ne_eq, not_true_eq_false, or_self, if_false, ac, bc]
  refine Computes.congr (gemm_loop cC ?_ ?_ (fun i l => star (ext A l i)) (fun l j => ext B l j)
    (fun i j => 0) ?_ ?_ ?_) ?_
  · have := cA.lead; have := cA.pos; simp; omega
  · have := cB.lead; have := cB.pos; simp; omega
  · intro i l hi hl m' hs
    rw [hA.opElem_H cA.unit dA (fun x hx => (hs x hx).trans (h2 x hx)) hi hl, ext_eq A hl hi]
  · intro l j hl hj m' hs
    rw [hB.opElem_N cB.unit dB (fun x hx => (hs x hx).trans (h2 x hx)) hl hj, ext_eq B hl hj]
  · intro i j hi hj
    obtain ⟨x, hx⟩ := hacc _ (mem_cells hi hj)
    exact ⟨x, hx, fun h => absurd rfl h⟩
  · intro i j
    simp

/-- **C45** for `transform`. -/
theorem C45_transform {vC vA vB : MView} {A : Matrix (Fin r) (Fin a) α} {B : Matrix (Fin a) (Fin b) α}
    (alpha : α) (cA : ColMajor vA) (cB : ColMajor vB) (cC : ColMajor vC) (hA : Holds m vA A)
    (hB : Holds m vB B) (hcr : vC.rows = r) (hcc : vC.cols = b)
    (dA : Disjoint (cells vA) (cells vC)) (dB : Disjoint (cells vB) (cells vC)) :
    ∃ C : Matrix (Fin r) (Fin b) α, ∀ m2, SameOutside (cells vC) m m2 → Accessible m2 vC →
      Computes (transformK vC 0 alpha vA vB) m2 vC C := by
  obtain ⟨ar, ac, _⟩ := id hA
  obtain ⟨br, bc, _⟩ := id hB
  subst ac hcr hcc
  refine ⟨fun i j => alpha * sumL vA.cols (fun l => ext A i l * ext B l j), fun m2 h2 hacc => ?_⟩
  unfold transformK
  rw [if_pos (by simp [cA.single, cB.single, cC.single])]
  simp only [cA.unit, cB.unit, cC.unit, ne_eq, not_true_eq_false, or_self, if_false, ar, bc]
  refine Computes.congr (gemm_loop cC ?_ ?_ (fun i l => ext A i l) (fun l j => ext B l j)
    (fun i j => 0) ?_ ?_ ?_) ?_
  · have := cA.lead; have := cA.pos; simp; omega
  · have := cB.lead; have := cB.pos; simp; omega
  · intro i l hi hl m' hs
    rw [hA.opElem_N cA.unit dA (fun x hx => (hs x hx).trans (h2 x hx)) hi hl, ext_eq A hi hl]
  · intro l j hl hj m' hs
    rw [hB.opElem_N cB.unit dB (fun x hx => (hs x hx).trans (h2 x hx)) hl hj, ext_eq B hl hj]
  · intro i j hi hj
    obtain ⟨x, hx⟩ := hacc _ (mem_cells hi hj)
    exact ⟨x, hx, fun h => absurd rfl h⟩
  · intro i j
    simp

end beta

/-- Numbers with a NaN, as in IEEE arithmetic: NaN times or plus anything is NaN. -/
inductive Fl where
  | nan
  | num (x : ℤ)
  deriving DecidableEq

namespace Fl
instance : Zero Fl := ⟨num 0⟩
instance : One Fl := ⟨num 1⟩
instance : Neg Fl := ⟨fun | num x => num (-x) | nan => nan⟩
instance : Add Fl := ⟨fun | num x, num y => num (x + y) | _, _ => nan⟩
instance : Mul Fl := ⟨fun | num x, num y => num (x * y) | _, _ => nan⟩
end Fl

/-- **C45** fails for `add`: with `beta = 0`, whatever is added, a NaN in the destination stays. -/
theorem C45_not_add (sch : Sched) {m : Mem Fl} {vC vA : MView} {r a : ℕ}
    {A C : Matrix (Fin r) (Fin a) Fl} (alpha : Fl) (cA : ColMajor vA) (cC : ColMajor vC)
    (hA : Holds m vA A) (hC : Holds m vC C) (hd : Compatible vC vA) :
    ∃ D : Matrix (Fin r) (Fin a) Fl, Computes (addK sch vC vA alpha 0) m vC D ∧
      ∀ i j, C i j = .nan → D i j = .nan := by
  obtain ⟨cr, cc, _⟩ := id hC
  subst cr cc
  refine ⟨fun i j => alpha * A i j + 0 * C i j, ?_, ?_⟩
  · unfold addK geam
    rw [if_pos (by simp [cA.single, cC.single])]
    simp only [cA.unit, cC.unit, ne_eq, not_true_eq_false, or_self, if_false, hA.1]
    refine Computes.congr (elementwise (m := m) (src := vA) sch cC.inj hd hA.1 hA.2.1
      (fun p => alpha * ext A p.1 p.2 + 0 * ext C p.1 p.2) _ ?_) (by simp)
    intro p h1 h2 m' _ e1 e2
    have hx := e2.trans (hC.ext_at h1 h2)
    rw [colAddr_eq cA.unit, colAddr_eq cC.unit,
      load_bind (e1.trans (hA.ext_at (hA.1.symm ▸ h1) (hA.2.1.symm ▸ h2))), load_bind hx, store_ok hx]
  · intro i j h
    dsimp only
    rw [h]
    cases alpha * A i j <;> rfl

/-- So negating a matrix through uninitialised memory that holds NaN yields NaN: `minus` of the 1 by 1
matrix 5. -/
theorem C45_not_minus (sch : Sched) :
    ∃ m', minusK sch ⟨0, 1, 1, 1, 1, true⟩ 10 (fun _ => Fl.nan)
        (fun x => if x = 0 then some (.num 5) else none) = (.ok ⟨10, 1, 1, 1, 1, true⟩, m') ∧
      m' 10 = some .nan := by
  have hm : ∀ m : Mem Fl, m 0 = some (.num 5) → m 10 = some .nan →
      ∃ m', addK sch ⟨10, 1, 1, 1, 1, true⟩ ⟨0, 1, 1, 1, 1, true⟩ (-1) 0 m = (.ok (), m') ∧
        m' 10 = some .nan := by
    intro m h0 h10
    obtain ⟨D, ⟨_, m', e, hD, _⟩, h⟩ := C45_not_add sch (m := m) (vC := ⟨10, 1, 1, 1, 1, true⟩)
      (vA := ⟨0, 1, 1, 1, 1, true⟩) (A := fun (_ _ : Fin 1) => .num 5) (C := fun (_ _ : Fin 1) => .nan)
      (-1) ⟨rfl, le_rfl, le_rfl, rfl⟩ ⟨rfl, le_rfl, le_rfl, rfl⟩
      ⟨rfl, rfl, by intro i j; fin_cases i; fin_cases j; simpa using h0⟩
      ⟨rfl, rfl, by intro i j; fin_cases i; fin_cases j; simpa using h10⟩
      (Or.inl (by
        rw [Set.disjoint_left]
        rintro _ ⟨i, j, hi, hj, rfl⟩ ⟨i', j', hi', hj', h⟩
        dsimp only at *
        omega))
    exact ⟨m', e, by simpa using (hD.2.2 0 0).trans (congrArg some (h 0 0 rfl))⟩
  obtain ⟨m', e, h⟩ := hm (fun x => if 10 ≤ x ∧ x < 11 then some .nan else
    if x = 0 then some (.num 5) else none) (by simp) (by simp)
  refine ⟨m', ?_, h⟩
  rw [minusK, SM.bind_apply, allocate_eq]
  dsimp only
  rw [SM.bind_apply, e]
  rfl

/-- **C45** for `add` holds as long as the destination holds numbers. -/
theorem C45_add_partial {R : Type} [CommRing R] (sch : Sched) {m : Mem R} {vC vA : MView} {r a : ℕ}
    {A C : Matrix (Fin r) (Fin a) R} (alpha : R) (cA : ColMajor vA) (cC : ColMajor vC)
    (hA : Holds m vA A) (hC : Holds m vC C) (hd : Compatible vC vA) :
    Computes (addK sch vC vA alpha 0) m vC (alpha • A) :=
  (C44_add sch alpha 0 cA cC hA hC hd).congr (by simp)

/-! ## Diagonal matrices -/

section diagonal
variable {R : Type} [CommRing R] {m : Mem R} {n : ℕ}

/-- **C47**, `make_diag`: the new matrix has the vector on its diagonal and 0 elsewhere, and no other
memory changes. -/
theorem C47_make_diag (sch : Sched) {x : Fin n → R} {xa base : ℕ} (hx : HoldsVec m xa x)
    (hf : Free m base (n * n)) :
    ∃ v m', makeDiagK sch xa n base m = (.ok v, m') ∧ Holds m' v (Matrix.diagonal x) ∧
      cells v ⊆ {a | base ≤ a ∧ a < base + n * n} ∧
      SameOutside {a | base ≤ a ∧ a < base + n * n} m m' := by
  obtain ⟨m', e, h1, h2⟩ := forEach_writes (fun i => base + i * 1 + i * n)
    (fun i => if h : i < n then x ⟨i, h⟩ else 0)
    (fun i => do let v ← load (xa + i); store (MView.addr ⟨base, n, n, 1, n, true⟩ i i) v)
    (fun a => if base ≤ a ∧ a < base + n * n then some 0 else m a) (sch.order (List.range n)) _
    (sch.nodup_order.2 List.nodup_range)
    (by
      intro i _ j _ h
      have h' : i * (n + 1) = j * (n + 1) := by rw [Nat.mul_add, Nat.mul_add]; omega
      exact Nat.eq_of_mul_eq_mul_right (by omega) h')
    (by
      intro i hi m1 hm
      have hi : i < n := List.mem_range.1 (sch.mem_order.1 hi)
      have hb := lt_mul_of_cell hi hi
      have e1 : m1 (xa + i) = some (x ⟨i, hi⟩) := by
        have := hx ⟨i, hi⟩
        rw [hm, if_neg (hf.not_some this), this]
        intro j hj hne e
        have hj : j < n := List.mem_range.1 (sch.mem_order.1 hj)
        have := lt_mul_of_cell hj hj
        exact hf.not_some (hx ⟨i, hi⟩) (by dsimp only; omega)
      have e2 : m1 (base + i * 1 + i * n) = some 0 := by
        rw [hm, if_pos (by omega)]
        intro j hj hne e
        have h' : i * (n + 1) = j * (n + 1) := by rw [Nat.mul_add, Nat.mul_add]; omega
        exact hne (Nat.eq_of_mul_eq_mul_right (by omega) h').symm
      rw [load_bind e1, addr_eq, store_ok e2]
      simp [hi])
    (fun _ => rfl)
  refine ⟨⟨base, n, n, 1, n, true⟩, m', ?_, ⟨rfl, rfl, fun i j => ?_⟩, fun a ha => cells_contiguous ha, ?_⟩
  · rw [makeDiagK, ok_bind (allocate_eq _ _ _ _), makeDiagLoop, ok_bind e]
    rfl
  · dsimp only
    by_cases hij : i = j
    · subst hij
      have := h1 i (sch.mem_order.2 (List.mem_range.2 i.2))
      simpa using this
    · rw [h2, if_pos, Matrix.diagonal_apply_ne _ hij]
      · have := lt_mul_of_cell i.2 j.2
        omega
      · intro k hk e
        have hk : k < n := List.mem_range.1 (sch.mem_order.1 hk)
        obtain ⟨a, b⟩ := colMajor_inj (ld := n) (r := n) (j := j) (j' := k) le_rfl i.2 hk
          (by rw [Nat.mul_comm n, Nat.mul_comm n]; omega)
        exact hij (Fin.ext (a.trans b.symm))
  · intro a ha
    refine (h2 a ?_).trans (if_neg ha)
    intro k hk e
    have hk : k < n := List.mem_range.1 (sch.mem_order.1 hk)
    have := lt_mul_of_cell hk hk
    exact ha (by constructor <;> omega)

/-- **C47**, `diag`: the new vector holds the diagonal of any matrix, square or not. -/
theorem C47_diag (sch : Sched) {r c : ℕ} {X : Matrix (Fin r) (Fin c) R} {v : MView} {d : ℕ}
    (hX : Holds m v X) (hf : Free m d (min r c)) :
    ∃ m', diagK sch v d m = (.ok (min r c), m') ∧
      HoldsVec m' d (fun i : Fin (min r c) => X ⟨i, by omega⟩ ⟨i, by omega⟩) ∧
      SameOutside {a | d ≤ a ∧ a < d + min r c} m m' := by
  obtain ⟨m', e, h1, h2⟩ := forEach_writes (fun i => d + i) (fun i => ext X i i)
    (fun i => do let x ← load (v.addr i i); store (d + i) x)
    (fun a => if d ≤ a ∧ a < d + min r c then some 0 else m a) (sch.order (List.range (min r c))) _
    (sch.nodup_order.2 List.nodup_range) (by intro i _ j _ h; omega)
    (by
      intro i hi m1 hm
      have hi : i < min r c := List.mem_range.1 (sch.mem_order.1 hi)
      have hx := hX.ext_at (i := i) (j := i) (by rw [hX.1]; omega) (by rw [hX.2.1]; omega)
      have e1 : m1 (v.data + i * v.s0 + i * v.s1) = some (ext X i i) := by
        rw [hm, if_neg (hf.not_some hx), hx]
        intro j hj hne e
        have hj : j < min r c := List.mem_range.1 (sch.mem_order.1 hj)
        exact hf.not_some hx (by omega)
      have e2 : m1 (d + i) = some 0 := by
        rw [hm, if_pos (by omega)]
        intro j hj hne e
        omega
      rw [addr_eq, load_bind e1, store_ok e2])
    (fun _ => rfl)
  refine ⟨m', ?_, ?_, ?_⟩
  · rw [diagK]
    simp only [hX.1, hX.2.1]
    rw [ok_bind (allocate_eq _ _ _ _), diagLoop, ok_bind e]
    rfl
  · intro i
    have := h1 i (sch.mem_order.2 (List.mem_range.2 i.2))
    rw [this, ext_eq X (by omega) (by omega)]
  · intro a ha
    refine (h2 a ?_).trans (if_neg ha)
    intro k hk e
    have hk : k < min r c := List.mem_range.1 (sch.mem_order.1 hk)
    exact ha (by constructor <;> omega)

/-- **C47**: building a diagonal matrix and taking its diagonal gives the vector back. -/
theorem C47_round_trip (sch : Sched) {x : Fin n → R} {xa base d : ℕ} (hx : HoldsVec m xa x)
    (hf : Free m base (n * n)) (hd : Free m d n) (hbd : base + n * n ≤ d ∨ d + n ≤ base) :
    ∃ m', (do let v ← makeDiagK sch xa n base; diagK sch v d) m = (.ok n, m') ∧
      HoldsVec m' d x ∧ HoldsVec m' xa x := by
  obtain ⟨v, m1, e1, h1, _, s1⟩ := C47_make_diag sch hx hf
  obtain ⟨m2, e2, h2, s2⟩ := C47_diag sch (d := d) h1 (by
    intro a ha hb
    rw [s1 a (by rintro ⟨_, _⟩; omega)]
    exact hd a ha (by omega))
  rw [Nat.min_self] at e2
  refine ⟨m2, by rw [ok_bind e1]; exact e2, ?_, ?_⟩
  · intro i
    simpa using h2 ⟨i, by omega⟩
  · intro i
    have h := hx i
    rw [s2 _ (by rw [Nat.min_self]; exact hd.not_some h), s1 _ (hf.not_some h), h]

/-- A vector of length 2 at 0, the matrix at 10, the new vector at 20. -/
example : ∃ m', (do let v ← makeDiagK .backwards 0 2 10; diagK .backwards v 20)
      (fun a => if a = 0 then some (3 : ℤ) else if a = 1 then some 4 else none) = (.ok 2, m') ∧
    m' 20 = some 3 ∧ m' 21 = some 4 := by
  obtain ⟨m', e, h, _⟩ := C47_round_trip .backwards (R := ℤ) (n := 2) (x := ![3, 4]) (xa := 0) (base := 10)
    (d := 20) (m := fun a => if a = 0 then some (3 : ℤ) else if a = 1 then some 4 else none)
    (by intro i; fin_cases i <;> rfl) (by intro a h1 h2; dsimp only; rw [if_neg, if_neg] <;> omega)
    (by intro a h1 h2; dsimp only; rw [if_neg, if_neg] <;> omega) (by omega)
  exact ⟨m', e, h 0, h 1⟩

end diagonal

/-! ## Buffers of the host -/

/-- **C42**: wrapping a host buffer and describing the wrapped matrix gives the same description, for all
`int` sizes and strides. -/
theorem C42_round_trip (b : Buffer) (h : b.memtype = .host) :
    ∃ v, wrapBuffer b = .ok v ∧ v.asBuffer = b := by
  refine ⟨_, by rw [wrapBuffer, if_neg (by simp [h])], ?_⟩
  have key : ∀ x : BitVec 32, (x.signExtend 64).setWidth 32 = x := by
    intro x
    apply BitVec.eq_of_getLsbD_eq
    intro i hi
    simp [BitVec.getLsbD_signExtend, hi]
    omega
  obtain ⟨s0, s1, n0, n1, d, t⟩ := b
  simp only at h
  simp [StridedView.asBuffer, key, h]

/-- **C42**: other kinds of memory are refused. -/
theorem C42_other_memory (b : Buffer) (h : b.memtype ≠ .host) : wrapBuffer b = .throw .runtimeError := by
  rw [wrapBuffer, if_pos h]

theorem signExtend_toNat {x : BitVec 32} (h : 0 ≤ x.toInt) : (x.signExtend 64).toNat = x.toInt := by
  have h1 : x.msb = false := by
    by_contra hm
    have := BitVec.toInt_neg_iff (x := x)
    rw [BitVec.msb_eq_toInt] at hm
    simp at hm
    omega
  rw [BitVec.signExtend_eq_setWidth_of_msb_false h1, BitVec.toNat_setWidth,
    BitVec.toInt_eq_toNat_of_msb h1]
  have := x.isLt
  rw [Nat.mod_eq_of_lt (by omega)]

/-- **C42**: element `(i, j)` is at offset `i * stride0 + j * stride1` of the buffer (no overflow of
`size_t`), for non-negative strides. -/
theorem C42_address {b : Buffer} {v : StridedView} (hw : wrapBuffer b = .ok v) {i j : ℕ}
    (h0 : 0 ≤ b.stride0.toInt) (h1 : 0 ≤ b.stride1.toInt) (hi : (i : ℤ) < b.size0.toInt)
    (hj : (j : ℤ) < b.size1.toInt) :
    (v.addr i j : ℤ) = b.data + i * b.stride0.toInt + j * b.stride1.toInt := by
  unfold wrapBuffer at hw
  split at hw
  · simp at hw
  simp only [Res.ok.injEq] at hw
  subst hw
  have e0 := signExtend_toNat h0
  have e1 := signExtend_toNat h1
  have b0 : b.stride0.toInt < 2 ^ 31 := BitVec.toInt_lt
  have b1 : b.stride1.toInt < 2 ^ 31 := BitVec.toInt_lt
  have c0 : b.size0.toInt < 2 ^ 31 := BitVec.toInt_lt
  have c1 : b.size1.toInt < 2 ^ 31 := BitVec.toInt_lt
  simp only [StridedView.addr, BitVec.toNat_add, BitVec.toNat_mul, BitVec.toNat_ofNat]
  rw [← e0] at b0 ⊢
  rw [← e1] at b1 ⊢
  generalize (b.stride0.signExtend 64).toNat = s0 at *
  generalize (b.stride1.signExtend 64).toNat = s1 at *
  have hi' : i < 2 ^ 31 := by omega
  have hj' : j < 2 ^ 31 := by omega
  have p0 : i * s0 < 2 ^ 31 * 2 ^ 31 := Nat.mul_lt_mul'' hi' (by omega)
  have p1 : j * s1 < 2 ^ 31 * 2 ^ 31 := Nat.mul_lt_mul'' hj' (by omega)
  rw [Nat.mod_eq_of_lt (a := i) (by omega), Nat.mod_eq_of_lt (a := j) (by omega),
    Nat.mod_eq_of_lt (a := i * s0) (by omega), Nat.mod_eq_of_lt (a := j * s1) (by omega),
    Nat.mod_eq_of_lt (by omega)]
  push_cast
  ring

/-- **C42**: with unit stride in the columns and a leading dimension of at least the number of rows,
different elements have different addresses. -/
theorem C42_no_collision {b : Buffer} {v : StridedView} (hw : wrapBuffer b = .ok v) {i j i' j' : ℕ}
    (h0 : b.stride0.toInt = 1) (h1 : b.size0.toInt ≤ b.stride1.toInt) (hi : (i : ℤ) < b.size0.toInt)
    (hj : (j : ℤ) < b.size1.toInt) (hi' : (i' : ℤ) < b.size0.toInt) (hj' : (j' : ℤ) < b.size1.toInt)
    (h : v.addr i j = v.addr i' j') : i = i' ∧ j = j' := by
  have e := C42_address hw (by omega) (by omega) hi hj
  have e' := C42_address hw (by omega) (by omega) hi' hj'
  rw [h] at e
  obtain ⟨ld, hld⟩ := Int.eq_ofNat_of_zero_le (a := b.stride1.toInt) (by omega)
  obtain ⟨r, hr⟩ := Int.eq_ofNat_of_zero_le (a := b.size0.toInt) (by omega)
  rw [hld, h0] at e e'
  refine colMajor_inj (ld := ld) (r := r) (by omega) (by omega) (by omega) ?_
  have : ((i + ld * j : ℕ) : ℤ) = ((i' + ld * j' : ℕ) : ℤ) := by push_cast; linarith
  exact_mod_cast this

/-- a padded 3 by 2 host matrix with leading dimension 4 -/
example : ∃ v, wrapBuffer ⟨1, 4, 3, 2, 100, .host⟩ = .ok v ∧ v.asBuffer = ⟨1, 4, 3, 2, 100, .host⟩ ∧
    v.addr 2 1 = 106 := ⟨_, rfl, rfl, rfl⟩

/-- what the copying version stores -/
theorem copyMatrix_eq {α : Type} [Zero α] {m : Mem α} {rows cols src base : ℕ}
    (hsrc : ∀ k < rows * cols, ∃ x, m (src + k) = some x) (hf : Free m base (rows * cols)) :
    ∃ m', copyMatrix rows cols src base m = (.ok ⟨base, rows, cols, 1, rows, true⟩, m') ∧
      (∀ k < rows * cols, m' (base + k) = m (src + k)) ∧
      SameOutside {a | base ≤ a ∧ a < base + rows * cols} m m' := by
  choose! g hg using hsrc
  obtain ⟨m', e, h1, h2⟩ := forEach_writes (fun k => base + k) g
    (fun k => do let x ← load (src + k); store (base + k) x)
    (fun a => if base ≤ a ∧ a < base + rows * cols then some 0 else m a) (List.range (rows * cols)) _
    List.nodup_range (by intro i _ j _ h; omega)
    (by
      intro i hi m1 hm
      have hi := List.mem_range.1 hi
      have e1 : m1 (src + i) = some (g i) := by
        rw [hm, if_neg (hf.not_some (hg i hi)), hg i hi]
        intro j hj hne e
        have hj := List.mem_range.1 hj
        exact hf.not_some (hg i hi) (by omega)
      have e2 : m1 (base + i) = some 0 := by
        rw [hm, if_pos (by omega)]
        intro j hj hne e
        omega
      rw [load_bind e1, store_ok e2])
    (fun _ => rfl)
  refine ⟨m', ?_, ?_, ?_⟩
  · rw [copyMatrix, ok_bind (allocate_eq _ _ _ _), ok_bind e]
    rfl
  · intro k hk
    rw [h1 k (List.mem_range.2 hk), hg k hk]
  · intro a ha
    refine (h2 a ?_).trans (if_neg ha)
    intro k hk e
    have hk := List.mem_range.1 hk
    exact ha (by constructor <;> omega)

/-- **C43** for buffers without padding (or with a single column): the copy is the host's matrix, and no
other memory changes. -/
theorem C43_copy_partial {α : Type} [Zero α] {m : Mem α} {rows cols ld src base : ℕ}
    {A : Matrix (Fin rows) (Fin cols) α} (hA : Holds m ⟨src, rows, cols, 1, ld, true⟩ A)
    (hld : ld = rows ∨ cols ≤ 1) (hf : Free m base (rows * cols)) :
    ∃ v m', copyMatrix rows cols src base m = (.ok v, m') ∧ Holds m' v A ∧
      SameOutside {a | base ≤ a ∧ a < base + rows * cols} m m' := by
  have flat : ∀ i j, i < rows → j < cols → j * ld = j * rows := by
    intro i j hi hj
    rcases hld with h | h
    · rw [h]
    · obtain rfl : j = 0 := by omega
      simp
  obtain ⟨m', e, h1, h2⟩ := copyMatrix_eq (m := m) (rows := rows) (cols := cols) (src := src) (base := base)
    (by
      intro k hk
      have hr : 0 < rows := Nat.pos_of_ne_zero fun e => by subst e; simp at hk
      have hj : k / rows < cols := by rw [Nat.div_lt_iff_lt_mul hr, Nat.mul_comm]; exact hk
      have := hA.ext_at (i := k % rows) (j := k / rows) (Nat.mod_lt _ hr) hj
      dsimp only at this
      rw [flat _ _ (Nat.mod_lt k hr) hj] at this
      have hk' := Nat.mod_add_div k rows
      rw [Nat.mul_comm rows] at hk'
      exact ⟨_, (congrArg m (by omega)).trans this⟩) hf
  refine ⟨_, m', e, ⟨rfl, rfl, fun i j => ?_⟩, h2⟩
  have := h1 (i + j * rows) (lt_mul_of_cell i.2 j.2)
  have h3 := hA.2.2 i j
  dsimp only at h3 ⊢
  rw [flat _ _ i.2 j.2] at h3
  rw [← h3, Nat.add_assoc, Nat.add_assoc, Nat.mul_one, this]

/-- **C43** fails for padded buffers: exactly the buffers without padding (or with fewer than two columns,
or no rows) are copied correctly whatever they contain. -/
theorem C43_not_padded {R : Type} [CommRing R] [Nontrivial R] {rows cols ld src base : ℕ} (hld : rows ≤ ld)
    (hb : src + ld * cols ≤ base) :
    (∀ (m : Mem R) (A : Matrix (Fin rows) (Fin cols) R), (∀ k < ld * cols, ∃ x, m (src + k) = some x) →
      Holds m ⟨src, rows, cols, 1, ld, true⟩ A → Free m base (rows * cols) →
      ∃ v m', copyMatrix rows cols src base m = (.ok v, m') ∧ Holds m' v A) ↔
    ld = rows ∨ cols ≤ 1 ∨ rows = 0 := by
  constructor
  · intro h
    by_contra hn
    simp only [not_or, not_le] at hn
    obtain ⟨n1, n2, n3⟩ := hn
    let m : Mem R := fun a => if a < base then (if a = src + rows then some 1 else some 0) else none
    have acc : ∀ i j, i < rows → j < cols → src + i * 1 + j * ld < base := by
      intro i j hi hj
      have := lt_mul_of_cell (r := ld) (c := cols) (lt_of_lt_of_le hi hld) hj
      omega
    have ne : ∀ i j, i < rows → src + i * 1 + j * ld ≠ src + rows := by
      intro i j hi e
      rcases Nat.eq_zero_or_pos j with h | h
      · subst h; omega
      · have : 1 * ld ≤ j * ld := Nat.mul_le_mul_right _ h
        omega
    obtain ⟨v, m', e, _, _, hv⟩ := h m (fun _ _ => 0)
      (by
        intro k hk
        have : src + k < base := by omega
        simp only [m, if_pos this]
        split <;> exact ⟨_, rfl⟩)
      ⟨rfl, rfl, by
        intro i j
        simp only [m]
        rw [if_pos (acc i j i.2 j.2), if_neg (ne i j i.2)]⟩
      (by
        intro a ha _
        simp only [m]
        rw [if_neg (by omega)])
    have hc : rows * 1 < rows * cols := Nat.mul_lt_mul_of_pos_left (by omega) (by omega)
    have hcl : rows * cols ≤ ld * cols := Nat.mul_le_mul_right _ hld
    obtain ⟨m2, e2, h2, _⟩ := copyMatrix_eq (m := m) (rows := rows) (cols := cols) (src := src) (base := base)
      (by
        intro k hk
        have : src + k < base := by omega
        simp only [m, if_pos this]
        split <;> exact ⟨_, rfl⟩)
      (by
        intro a ha _
        simp only [m]
        rw [if_neg (by omega)])
    rw [e2] at e
    simp only [Prod.mk.injEq, Res.ok.injEq] at e
    obtain ⟨rfl, rfl⟩ := e
    have h3 := hv ⟨0, by omega⟩ ⟨1, n2⟩
    have h4 := h2 rows (by omega)
    simp only [Nat.zero_mul, Nat.add_zero, Nat.one_mul] at h3
    rw [h4] at h3
    simp only [m] at h3
    rw [if_pos (by omega)] at h3
    simp at h3
  · rintro h m A _ hA hf
    by_cases h0 : rows = 0
    · subst h0
      obtain ⟨m', e, _, _⟩ := copyMatrix_eq (m := m) (rows := 0) (cols := cols) (src := src) (base := base)
        (by intro k hk; simp at hk) hf
      exact ⟨_, m', e, rfl, rfl, fun i => i.elim0⟩
    · obtain ⟨v, m', e, hv, _⟩ := C43_copy_partial hA (by tauto) hf
      exact ⟨v, m', e, hv⟩

/-- The smallest failure: one row, two columns, leading dimension 2. -/
example : ¬ (2 = 1 ∨ 2 ≤ 1 ∨ 1 = 0) := by decide

end Nlcg
