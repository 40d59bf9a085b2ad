import Verif.Proofs.IntSize

/-! # C101: sizes and offsets do not overflow -/

namespace Nlcg
open Spec
variable {α : Type}

section
variable [Add α] [Mul α]

/-- **C101** for `add` on the host (without MKL): no overflow if the last element of both matrices is less than
2^31 elements away from the first one. -/
theorem C101_add_partial (sch : Sched) (C A : MView) (alpha beta : α)
    (hA : ∀ i j, i < A.rows → j < C.cols → i + A.s1 * j < 2 ^ 31)
    (hC : ∀ i j, i < A.rows → j < C.cols → i + C.s1 * j < 2 ^ 31) :
    addKI sch C A alpha beta = addK sch C A alpha beta := by
  unfold addKI addK
  split
  · simp only
    split
    · rfl
    · unfold geamI geam
      refine forEach_congr fun p hp => ?_
      rw [Sched.mem_order, mem_indexPairs] at hp
      simp only [geamIndexI_ok (hA p.1 p.2 hp.1 hp.2), geamIndexI_ok (hC p.1 p.2 hp.1 hp.2), lift_ok_bind,
        Int.toNat_natCast]
  · rfl

/-- **C101** fails: for larger matrices `add` is undefined, whatever the memory holds and in whatever order the
columns are treated. -/
theorem C101_not_add {m : Mem α} (sch : Sched) {C A : MView} (alpha beta : α) (hC : ColMajor C) (hA : ColMajor A)
    (hr : A.rows = C.rows) (hcol : A.cols = C.cols) (hmA : Accessible m A) (hmC : Accessible m C) (h0 : 1 ≤ C.rows)
    (h1 : 1 ≤ C.cols)
    (h : 2 ^ 31 ≤ (C.rows - 1) + C.s1 * (C.cols - 1) ∨ 2 ^ 31 ≤ (A.rows - 1) + A.s1 * (A.cols - 1)) :
    (addKI sch C A alpha beta m).1 = .ub := by
  have eA : ∀ i j, A.data + (i + A.s1 * j) = A.addr i j := fun i j => by rw [colAddr_eq hA.unit, addr_eq]
  have eC : ∀ i j, C.data + (i + C.s1 * j) = C.addr i j := fun i j => by rw [colAddr_eq hC.unit, addr_eq]
  have hs : ¬ (A.s0 ≠ 1 ∨ C.s0 ≠ 1) := by simp [hA.unit, hC.unit]
  have xA : ∀ {m : Mem α}, Accessible m A → ∀ {i j}, i < C.rows → j < C.cols →
      ∃ x, m (A.data + (i + A.s1 * j)) = some x := by
    intro m h i j hi hj
    rw [eA, addr_eq]; exact h _ (mem_cells (hr ▸ hi) (hcol ▸ hj))
  have xC : ∀ {m : Mem α}, Accessible m C → ∀ {i j}, i < C.rows → j < C.cols →
      ∃ x, m (C.data + (i + C.s1 * j)) = some x := by
    intro m h i j hi hj
    rw [eC, addr_eq]; exact h _ (mem_cells hi hj)
  simp only [addKI, hA.single, hC.single, Bool.and_self, if_true, if_neg hs, geamI]
  refine forEach_ub (fun m => Accessible m A ∧ Accessible m C) _ _ m ?_ ?_ ⟨hmA, hmC⟩
  · rintro ⟨i, j⟩ hp m ⟨hmA, hmC⟩
    rw [Sched.mem_order, mem_indexPairs, hr] at hp
    obtain ⟨hi, hj⟩ := hp
    obtain ⟨x, hx⟩ := xA hmA hi hj
    obtain ⟨y, hy⟩ := xC hmC hi hj
    by_cases ha : i + A.s1 * j < 2 ^ 31
    · by_cases hc : i + C.s1 * j < 2 ^ 31
      · left
        refine ⟨_, (geamBody_ok (geamIndexI_ok ha) (geamIndexI_ok hc) (geamIndexI_ok hc) hx hy).trans (store_ok hy),
          fun a ha => ?_, fun a ha => ?_⟩
        · by_cases e : a = C.data + (i + C.s1 * j)
          · exact ⟨_, if_pos e⟩
          · obtain ⟨v, hv⟩ := hmA a ha
            exact ⟨v, (if_neg e).trans hv⟩
        · by_cases e : a = C.data + (i + C.s1 * j)
          · exact ⟨_, if_pos e⟩
          · obtain ⟨v, hv⟩ := hmC a ha
            exact ⟨v, (if_neg e).trans hv⟩
      · exact .inr (geamBody_ub (.inr ⟨geamIndexI_ok ha, hx, geamIndexI_ub (not_lt.1 hc)⟩))
    · exact .inr (geamBody_ub (x := x) (ia := 0) (.inl (geamIndexI_ub (not_lt.1 ha))))
  · refine ⟨(C.rows - 1, C.cols - 1), ?_, ?_⟩
    · rw [Sched.mem_order, mem_indexPairs]
      exact ⟨by omega, by omega⟩
    · rintro m ⟨hmA, hmC⟩
      obtain ⟨x, hx⟩ := xA hmA (i := C.rows - 1) (j := C.cols - 1) (by omega) (by omega)
      by_cases ha : (C.rows - 1) + A.s1 * (C.cols - 1) < 2 ^ 31
      · have hc : 2 ^ 31 ≤ (C.rows - 1) + C.s1 * (C.cols - 1) := by
          rcases h with h | h
          · exact h
          · rw [hr, hcol] at h
            exact absurd ha (not_lt.2 h)
        exact geamBody_ub (.inr ⟨geamIndexI_ok ha, hx, geamIndexI_ub hc⟩)
      · exact geamBody_ub (x := x) (ia := 0) (.inl (geamIndexI_ub (not_lt.1 ha)))

end

/-- **C101** for the copy of the orbitals of the host at the start: no overflow for less than 2^31 elements. -/
theorem C101_copy_partial [Zero α] {rows cols : ℕ} (src base : ℕ) (h : rows * cols < 2 ^ 31) :
    (copyMatrixI rows cols src base : MemM α MView) = copyMatrix rows cols src base := by
  unfold copyMatrixI copyMatrix mulI
  have e : (rows : ℤ) * cols = ((rows * cols : ℕ) : ℤ) := by push_cast; ring
  rw [e, cint_ok (by omega) (by omega)]
  rfl

/-- **C101** fails: the copy is undefined for every larger matrix. -/
theorem C101_not_copy [Zero α] {rows cols : ℕ} (src base : ℕ) (m : Mem α) (h : 2 ^ 31 ≤ rows * cols) :
    (copyMatrixI rows cols src base m).1 = .ub := by
  unfold copyMatrixI mulI
  have e : (rows : ℤ) * cols = ((rows * cols : ℕ) : ℤ) := by push_cast; ring
  rw [e, cint_ub (by omega)]
  rfl

/-- One million plane waves and two thousand bands (rounded to powers of 2) are too many. -/
example (m : Mem ℂ) : (copyMatrixI (2 ^ 20) (2 ^ 11) 0 (2 ^ 40) m).1 = .ub := C101_not_copy _ _ m (by norm_num)

example : (copyMatrixI (2 ^ 20) 2000 0 (2 ^ 40) : MemM ℂ MView) = copyMatrix (2 ^ 20) 2000 0 (2 ^ 40) :=
  C101_copy_partial _ _ (by norm_num)

/-- The hypotheses of `C101_not_add` hold for contiguous matrices of 2^20 rows and 2^11 + 1 columns. -/
example (sch : Sched) : ∃ (C A : MView) (m : Mem ℚ), ColMajor C ∧ ColMajor A ∧ Accessible m A ∧ Accessible m C ∧
    Disjoint (cells C) (cells A) ∧ (addKI sch C A 1 1 m).1 = .ub := by
  have hC : ColMajor ⟨0, 2 ^ 20, 2 ^ 11 + 1, 1, 2 ^ 20, true⟩ := ⟨rfl, le_refl _, by norm_num, rfl⟩
  have hA : ColMajor ⟨2 ^ 40, 2 ^ 20, 2 ^ 11 + 1, 1, 2 ^ 20, true⟩ := ⟨rfl, le_refl _, by norm_num, rfl⟩
  refine ⟨_, _, fun _ => some 1, hC, hA, fun a _ => ⟨1, rfl⟩, fun a _ => ⟨1, rfl⟩, ?_,
    C101_not_add sch 1 1 hC hA rfl rfl (fun a _ => ⟨1, rfl⟩) (fun a _ => ⟨1, rfl⟩) (by norm_num) (by norm_num)
      (.inl (by norm_num))⟩
  rw [Set.disjoint_left]
  rintro a ⟨i, j, hi, hj, rfl⟩ ⟨i', j', hi', hj', e⟩
  simp only at hi hj hi' hj' e
  omega

/-- **C101** for the work space of the eigensolver of MAGMA: no overflow for up to 32766 bands. -/
theorem C101_magma_partial {n lda nb : ℤ} (h0 : 0 ≤ n) (h : n ≤ 32766) (hl : n ≤ lda) (hl' : lda ≤ 2 * 32766 - 31)
    (hb : 0 ≤ nb) (hb' : nb ≤ 65535) : magmaWorkI n lda nb = .ok (magmaWork n lda nb) := by
  have r1 : (lda + 32 - 1) / 32 * 32 ≤ 65532 := by omega
  have r0 : 0 ≤ (lda + 32 - 1) / 32 * 32 := by omega
  generalize hld : (lda + 32 - 1) / 32 * 32 = ld at r1 r0
  have p1 : n * ld < 2 ^ 31 := by nlinarith
  have p1' : 0 ≤ n * ld := by positivity
  have p2 : n * nb ≤ 32766 * 65535 := by nlinarith
  have p2' : 0 ≤ n * nb := by positivity
  have p3 : n * n ≤ 32766 * 32766 := by nlinarith
  have p3' : 0 ≤ n * n := by positivity
  have p4 : 2 * n * n = 2 * (n * n) := by ring
  unfold magmaWorkI roundupI magmaWork roundup mulI addI subI
  simp only [cint_ok (show -2 ^ 31 ≤ lda + 32 by omega) (show lda + 32 < 2 ^ 31 by omega), res_ok_bind,
    cint_ok (show -2 ^ 31 ≤ lda + 32 - 1 by omega) (show lda + 32 - 1 < 2 ^ 31 by omega), hld,
    cint_ok (show -2 ^ 31 ≤ ld by omega) (show ld < 2 ^ 31 by omega),
    cint_ok (show -2 ^ 31 ≤ n * ld by omega) p1,
    cint_ok (show -2 ^ 31 ≤ n * nb by omega) (show n * nb < 2 ^ 31 by omega),
    cint_ok (show -2 ^ 31 ≤ n + n * nb by omega) (show n + n * nb < 2 ^ 31 by omega),
    cint_ok (show -2 ^ 31 ≤ 2 * n by omega) (show 2 * n < 2 ^ 31 by omega),
    cint_ok (show -2 ^ 31 ≤ n * n by omega) (show n * n < 2 ^ 31 by omega),
    cint_ok (show -2 ^ 31 ≤ 2 * n + n * n by omega) (show 2 * n + n * n < 2 ^ 31 by omega),
    cint_ok (show -2 ^ 31 ≤ 5 * n by omega) (show 5 * n < 2 ^ 31 by omega),
    cint_ok (show -2 ^ 31 ≤ 1 + 5 * n by omega) (show 1 + 5 * n < 2 ^ 31 by omega),
    cint_ok (show -2 ^ 31 ≤ 2 * n * n by omega) (show 2 * n * n < 2 ^ 31 by omega),
    cint_ok (show -2 ^ 31 ≤ 1 + 5 * n + 2 * n * n by omega) (show 1 + 5 * n + 2 * n * n < 2 ^ 31 by omega),
    cint_ok (show -2 ^ 31 ≤ 3 + 5 * n by omega) (show 3 + 5 * n < 2 ^ 31 by omega)]
  rfl

/-- **C101** fails: for more bands the sizes of the work arrays of MAGMA overflow. -/
theorem C101_not_magma {n : ℤ} (lda nb : ℤ) (h : 32767 ≤ n) : magmaWorkI n lda nb = .ub := by
  have p : 32767 * 32767 ≤ n * n := by nlinarith
  have p4 : 2 * n * n = 2 * (n * n) := by ring
  have r : ∀ {β : Type} (f : ℤ → Res β), (∀ x, f x = .ub) → (roundupI lda 32 >>= f) = .ub := by
    intro β f hf
    unfold roundupI addI subI mulI
    rcases cint_cases (lda + 32) with e | e <;> simp only [e]
    · rcases cint_cases (lda + 32 - 1) with e' | e' <;> simp only [res_ok_bind, e']
      · rcases cint_cases ((lda + 32 - 1) / 32 * 32) with e'' | e'' <;> simp only [res_ok_bind, e'', hf]
        rfl
      · rfl
    · rfl
  unfold magmaWorkI
  refine r _ fun ld => ?_
  unfold mulI addI
  refine cint_bind_ub (cint_bind_ub (cint_bind_ub (cint_bind_ub (cint_bind_ub (cint_bind_ub (cint_bind_ub
    (cint_bind_ub (cint_bind_ub (cint_bind_ub ?_)))))))))
  rw [cint_ub (by omega)]
  rfl

example : magmaWorkI 20000 20000 64 = .ok (magmaWork 20000 20000 64) :=
  C101_magma_partial (by norm_num) (by norm_num) (by norm_num) (by norm_num) (by norm_num) (by norm_num)

/-- **C101** for the gathering of vectors: no overflow, and the offsets of `Model/Mpi.lean`, if and only if all ranks
together have less than 2^31 elements. -/
theorem C101_gather (L : List (List ℕ)) :
    ((L.map List.sum).sum < 2 ^ 31 → blockOffsetsI 0 L = .ok (((L.map List.sum).sum : ℕ),
      (blockOffsets 0 L).map fun l => l.map fun n : ℕ => (n : ℤ))) ∧
    (2 ^ 31 ≤ (L.map List.sum).sum → blockOffsetsI 0 L = .ub) := by
  constructor
  · intro h
    have := blockOffsetsI_ok L 0 (by omega)
    simpa using this
  · intro h
    exact blockOffsetsI_ub L 0 (by norm_num) (by omega)

/-- two ranks with two and one k-points -/
example : blockOffsetsI 0 [[3, 4], [5]] = .ok (12, [[0, 3], [7]]) := (C101_gather [[3, 4], [5]]).1 (by decide)

end Nlcg
