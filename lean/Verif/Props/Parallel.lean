import Verif.Proofs.Parallel

/-! # C100: parallel loops have no data races -/

namespace Nlcg
open Spec
variable {α : Type}

theorem addr_inj {v : MView} (hd : Distinct v) {i j i' j' : ℕ} (hi : i < v.rows) (hj : j < v.cols) (hi' : i' < v.rows)
    (hj' : j' < v.cols) (h : v.addr i j = v.addr i' j') : i = i' ∧ j = j' := by
  rw [addr_eq, addr_eq] at h
  exact hd i j i' j' hi hj hi' hj' h

theorem addr_cells {v : MView} {i j : ℕ} (hi : i < v.rows) (hj : j < v.cols) : v.addr i j ∈ cells v := by
  rw [addr_eq]; exact mem_cells hi hj

/-- an element of the source is the element of the destination at the same place, or none of its elements -/
theorem compatible_addr {dst src : MView} (hd : Distinct dst) (hc : Compatible dst src) (hr : src.rows = dst.rows)
    (hcol : src.cols = dst.cols) {i j i' j' : ℕ} (hi : i < dst.rows) (hj : j < dst.cols) (hi' : i' < dst.rows)
    (hj' : j' < dst.cols) (h : dst.addr i j = src.addr i' j') : i = i' ∧ j = j' := by
  rcases hc with hc | rfl
  · exact (Set.disjoint_left.1 hc (addr_cells (hr ▸ hi') (hcol ▸ hj')) (h ▸ addr_cells hi hj)).elim
  · exact addr_inj hd hi hj hi' hj' h

variable {m : Mem α}

section
variable [Add α] [Mul α] [Zero α] [DecidableEq α]

theorem axpbyIter_run (dst src : MView) (alpha beta : α) (sch : Sched) (r c : ℕ) :
    axpbyLoop sch dst src r c alpha beta =
      forEach (sch.order (indexPairs r c)) fun p => (axpbyIter dst src alpha beta p).run := by
  unfold axpbyLoop axpbyIter
  split
  · simp only [run_load, run_store_done]
  · simp only [run_load, run_store_done]

/-- **C100**, `scale` by a number and `_add`. -/
theorem C100_scale (alpha beta : α) {dst src : MView} (hu : src.s0 = 1) (hr : src.rows = dst.rows)
    (hcol : src.cols = dst.cols) (hd : Distinct dst) (hc : Compatible dst src) (hS : Accessible m src)
    (hD : Accessible m dst) :
    ParallelKernel (fun sch => scaleK sch dst src alpha beta) (indexPairs src.rows src.cols)
      (axpbyIter dst src alpha beta) m ∧
    ParallelKernel (fun sch => addLoopK sch dst src alpha beta) (indexPairs src.rows src.cols)
      (axpbyIter dst src alpha beta) m := by
  have key : ParallelKernel (fun sch => axpbyLoop sch dst src src.rows src.cols alpha beta)
      (indexPairs src.rows src.cols) (axpbyIter dst src alpha beta) m := by
    obtain ⟨m', h1, h2, -⟩ := safe_writes (nodup_indexPairs src.rows src.cols) (m := m)
      (body := axpbyIter dst src alpha beta) (fun p => dst.addr p.1 p.2)
      (fun p => {dst.addr p.1 p.2, src.addr p.1 p.2}) (by
        rintro ⟨i, j⟩ hi ⟨i', j'⟩ hj hmem
        rw [mem_indexPairs, hr, hcol] at hi hj
        rcases hmem with h | h
        · have := addr_inj hd hi.1 hi.2 hj.1 hj.2 h
          simpa using this
        · have := compatible_addr hd hc hr hcol hi.1 hi.2 hj.1 hj.2 h
          simpa using this) (by
        rintro ⟨i, j⟩ hi
        rw [mem_indexPairs] at hi
        obtain ⟨x, hx⟩ := hS _ (addr_cells hi.1 hi.2)
        obtain ⟨y, hy⟩ := hD _ (addr_cells (hr ▸ hi.1) (hcol ▸ hi.2))
        unfold axpbyIter
        split
        · exact ⟨_, .load (by simp) hx (.store (by simp) rfl hy (.done _))⟩
        · exact ⟨_, .load (by simp) hy (.load (by simp) hx (.store (by simp) rfl hy (.done _)))⟩)
    exact ⟨m', fun sch => by simp only [axpbyIter_run]; exact h2 _ (sch.perm _), h1⟩
  constructor
  · obtain ⟨m', h1, h2⟩ := key
    exact ⟨m', fun sch => by simp only [scaleK, if_pos hu]; exact h1 sch, h2⟩
  · obtain ⟨m', h1, h2⟩ := key
    exact ⟨m', fun sch => by simpa [addLoopK, hr, hcol] using h1 sch, h2⟩

theorem scaleColsIter_run (dst src : MView) (x : ℕ) (alpha beta : α) (sch : Sched) (hu : src.s0 = 1) :
    scaleColsK sch dst src x alpha beta =
      forEach (sch.order (indexPairs src.rows src.cols)) fun p => (scaleColsIter dst src x alpha beta p).run := by
  unfold scaleColsK scaleColsIter
  rw [if_pos hu]
  split
  · simp only [run_load, run_store_done]
  · simp only [run_load, run_store_done]

/-- **C100**, `scale` by a vector. -/
theorem C100_scale_columns (alpha beta : α) {dst src : MView} {x : ℕ} (hu : src.s0 = 1) (hr : src.rows = dst.rows)
    (hcol : src.cols = dst.cols) (hd : Distinct dst) (hc : Compatible dst src) (hS : Accessible m src)
    (hD : Accessible m dst) (hx : AccessibleVec m x src.cols) (ha : Apart x src.cols dst) :
    ParallelKernel (fun sch => scaleColsK sch dst src x alpha beta) (indexPairs src.rows src.cols)
      (scaleColsIter dst src x alpha beta) m := by
  obtain ⟨m', h1, h2, -⟩ := safe_writes (nodup_indexPairs src.rows src.cols) (m := m)
    (body := scaleColsIter dst src x alpha beta) (fun p => dst.addr p.1 p.2)
    (fun p => {dst.addr p.1 p.2, src.addr p.1 p.2, x + p.2}) (by
      rintro ⟨i, j⟩ hi ⟨i', j'⟩ hj hmem
      rw [mem_indexPairs, hr, hcol] at hi hj
      rcases hmem with h | h | h
      · have := addr_inj hd hi.1 hi.2 hj.1 hj.2 h
        simpa using this
      · have := compatible_addr hd hc hr hcol hi.1 hi.2 hj.1 hj.2 h
        simpa using this
      · exact (ha j' (hcol ▸ hj.2) ((Set.mem_singleton_iff.1 h) ▸ addr_cells hi.1 hi.2)).elim) (by
      rintro ⟨i, j⟩ hi
      rw [mem_indexPairs] at hi
      obtain ⟨s, hs⟩ := hS _ (addr_cells hi.1 hi.2)
      obtain ⟨y, hy⟩ := hD _ (addr_cells (hr ▸ hi.1) (hcol ▸ hi.2))
      obtain ⟨z, hz⟩ := hx j hi.2
      unfold scaleColsIter
      split
      · exact ⟨_, .load (by simp) hz (.load (by simp) hs (.store (by simp) rfl hy (.done _)))⟩
      · exact ⟨_, .load (by simp) hy (.load (by simp) hz (.load (by simp) hs
          (.store (by simp) rfl hy (.done _))))⟩)
  exact ⟨m', fun sch => by simp only [scaleColsIter_run _ _ _ _ _ sch hu]; exact h2 _ (sch.perm _), h1⟩

end

section
variable [Add α] [Mul α]

/-- the elements of a column of a matrix stored by columns -/
def colCells (C ldc m j : ℕ) : Set ℕ := {a | ∃ i < m, a = C + (i + ldc * j)}

/-- one element of `geam` -/
def geamElem (alpha : α) (A lda : ℕ) (beta : α) (B ldb C ldc : ℕ) (p : ℕ × ℕ) : Iter α :=
  .load (A + (p.1 + lda * p.2)) fun x => .load (B + (p.1 + ldb * p.2)) fun y =>
    .store (C + (p.1 + ldc * p.2)) (alpha * x + beta * y) .done

/-- **C100**, `add`, which distributes the columns over threads. -/
theorem C100_add (alpha beta : α) {C A : MView} (hC : ColMajor C) (hA : ColMajor A) (hr : A.rows = C.rows)
    (hcol : A.cols = C.cols) (hc : Compatible C A) (hmA : Accessible m A) (hmC : Accessible m C) :
    ParallelKernel (fun sch => addK sch C A alpha beta) (List.range C.cols)
      (geamIter A.rows alpha A.data A.s1 beta C.data C.s1 C.data C.s1) m := by
  have eA : ∀ i j, A.data + (i + A.s1 * j) = A.addr i j := fun i j => by rw [colAddr_eq hA.unit, addr_eq]
  have eC : ∀ i j, C.data + (i + C.s1 * j) = C.addr i j := fun i j => by rw [colAddr_eq hC.unit, addr_eq]
  obtain ⟨m1, -, h1, -⟩ := safe_writes (nodup_indexPairs A.rows C.cols) (m := m)
    (body := geamElem alpha A.data A.s1 beta C.data C.s1 C.data C.s1) (fun p => C.addr p.1 p.2)
    (fun p => {C.addr p.1 p.2, A.addr p.1 p.2}) (by
      rintro ⟨i, j⟩ hi ⟨i', j'⟩ hj hmem
      rw [mem_indexPairs, hr] at hi hj
      rcases hmem with h | h
      · have := addr_inj hC.inj hi.1 hi.2 hj.1 hj.2 h
        simpa using this
      · have := compatible_addr hC.inj hc hr hcol hi.1 hi.2 hj.1 hj.2 h
        simpa using this) (by
      rintro ⟨i, j⟩ hi
      rw [mem_indexPairs] at hi
      obtain ⟨x, hx⟩ := hmA _ (addr_cells hi.1 (hcol ▸ hi.2))
      obtain ⟨y, hy⟩ := hmC _ (addr_cells (hr ▸ hi.1) hi.2)
      rw [geamElem, eA, eC]
      exact ⟨_, .load (by simp) hx (.load (by simp) hy (.store (by simp) rfl hy (.done _)))⟩)
  obtain ⟨m2, h2, h3, -⟩ := safe_of_fits (List.nodup_range (n := C.cols)) (m := m)
    (body := geamIter A.rows alpha A.data A.s1 beta C.data C.s1 C.data C.s1)
    (F := fun j => colCells C.data C.s1 C.rows j ∪ colCells A.data A.s1 A.rows j)
    (W := fun j => colCells C.data C.s1 C.rows j) (c := fun _ => (List.range A.rows).length * 3) (by
      intro j hj j' hj' hne
      rw [List.mem_range] at hj hj'
      rw [Set.disjoint_left]
      rintro a ⟨i, hi, rfl⟩ (⟨i', hi', e⟩ | ⟨i', hi', e⟩)
      · rw [eC, eC] at e
        exact hne (addr_inj hC.inj hi hj hi' hj' e).2
      · rw [eC, eA] at e
        exact hne (compatible_addr hC.inj hc hr hcol hi hj (hr ▸ hi') hj' e).2) (by
      intro j hj
      rw [List.mem_range] at hj
      refine Fits.loop _ 3 _ (fun i hi m' hm' => ?_) m ?_
      · rw [List.mem_range] at hi
        obtain ⟨x, hx⟩ := hm' (A.data + (i + A.s1 * j)) (.inr ⟨i, hi, rfl⟩)
        obtain ⟨y, hy⟩ := hm' (C.data + (i + C.s1 * j)) (.inl ⟨i, hr ▸ hi, rfl⟩)
        exact .load (.inr ⟨i, hi, rfl⟩) hx (.load (.inl ⟨i, hr ▸ hi, rfl⟩) hy
          (.store (.inl ⟨i, hr ▸ hi, rfl⟩) ⟨i, hr ▸ hi, rfl⟩ hy (.done _)))
      · rintro a (⟨i, hi, rfl⟩ | ⟨i, hi, rfl⟩)
        · rw [eC]; exact hmC _ (addr_cells hi hj)
        · rw [eA]; exact hmA _ (addr_cells hi (hcol ▸ hj)))
  have e12 : m1 = m2 := by
    have a1 := h1 _ (List.Perm.refl _)
    have a2 := h3 _ (List.Perm.refl _)
    rw [indexPairs, forEach_flatMap] at a1
    simp only [forEach_map] at a1
    simp only [geamIter, Iter.run_loop] at a2
    have := a1.symm.trans a2
    exact (Prod.mk.inj this).2
  refine ⟨m2, fun sch => ?_, h2⟩
  have hs : ¬ (A.s0 ≠ 1 ∨ C.s0 ≠ 1) := by simp [hA.unit, hC.unit]
  have := h1 _ (sch.perm (indexPairs A.rows C.cols))
  simp only [geamElem, run_load, run_store_done] at this
  simp only [addK, hA.single, hC.single, Bool.and_self, if_true, if_neg hs, geam]
  rw [this, e12]

/-- **C100**, the preconditioner of Teter et al.: every interleaving multiplies row `i` by `entries(i)`. -/
theorem C100_teter {dst src : MView} {entries r c : ℕ} {S : Matrix (Fin r) (Fin c) α} {e : Fin r → α}
    (hr : r = dst.rows) (hcol : c = dst.cols) (hd : Distinct dst) (hc : Compatible dst src) (hS : Holds m src S)
    (hD : Accessible m dst) (hx : HoldsVec m entries e) (ha : Apart entries dst.rows dst) :
    ∃ m', SafeLoop (indexPairs dst.rows dst.cols) (teterIter dst src entries) m m' ∧
      Holds m' dst (fun i j => e i * S i j) ∧ SameOutside (cells dst) m m' := by
  subst hr hcol
  have hr : src.rows = dst.rows := hS.1
  have hcol : src.cols = dst.cols := hS.2.1
  have es : ∀ {i j} (hi : i < dst.rows) (hj : j < dst.cols), m (src.addr i j) = some (S ⟨i, hi⟩ ⟨j, hj⟩) :=
    fun {i j} hi hj => by rw [addr_eq]; exact hS.2.2 ⟨i, hi⟩ ⟨j, hj⟩
  obtain ⟨m', h1, h2, -⟩ := safe_writes (nodup_indexPairs dst.rows dst.cols) (m := m)
    (body := teterIter dst src entries) (fun p => dst.addr p.1 p.2)
    (fun p => {dst.addr p.1 p.2, src.addr p.1 p.2, entries + p.1}) (by
      rintro ⟨i, j⟩ hi ⟨i', j'⟩ hj hmem
      rw [mem_indexPairs] at hi hj
      rcases hmem with h | h | h
      · have := addr_inj hd hi.1 hi.2 hj.1 hj.2 h
        simpa using this
      · have := compatible_addr hd hc hr hcol hi.1 hi.2 hj.1 hj.2 h
        simpa using this
      · exact (ha i' hj.1 ((Set.mem_singleton_iff.1 h) ▸ addr_cells hi.1 hi.2)).elim) (by
      rintro ⟨i, j⟩ hi
      rw [mem_indexPairs] at hi
      obtain ⟨y, hy⟩ := hD _ (addr_cells hi.1 hi.2)
      exact ⟨_, .load (by simp) (hx ⟨i, hi.1⟩) (.load (by simp) (es hi.1 hi.2) (.store (by simp) rfl hy (.done _)))⟩)
  by_cases hne : 0 < dst.rows ∧ 0 < dst.cols
  · have x0 : α := e ⟨0, hne.1⟩
    obtain ⟨m2, e2, k1, k2⟩ := forEach_matrix (v := dst) _ (List.Perm.refl _) hd
      (fun p => if h : p.1 < dst.rows ∧ p.2 < dst.cols then e ⟨p.1, h.1⟩ * S ⟨p.1, h.1⟩ ⟨p.2, h.2⟩ else x0)
      (fun p => (teterIter dst src entries p).run) m (by
        rintro ⟨i, j⟩ hi hj m1 hm1
        obtain ⟨y, hy⟩ := hD _ (mem_cells hi hj)
        have a1 : m1 (entries + i) = some (e ⟨i, hi⟩) := by
          rw [hm1 (entries + i) fun i' j' hi' hj' _ h => ha i hi (h ▸ mem_cells hi' hj')]
          exact hx ⟨i, hi⟩
        have a2 : m1 (src.addr i j) = some (S ⟨i, hi⟩ ⟨j, hj⟩) := by
          rw [hm1 _ fun i' j' hi' hj' hne h => ?_]
          · exact es hi hj
          · rw [← addr_eq] at h
            have := compatible_addr hd hc hr hcol hi' hj' hi hj h.symm
            exact hne (by simp [this])
        rw [teterIter, run_load, load_bind a1, run_load, load_bind a2, run_store_done, addr_eq,
          store_ok ((keep_at hd hm1 hi hj).trans hy)]
        simp only [hi, hj, and_self, dif_pos])
    obtain rfl : m' = m2 := (Prod.mk.inj ((h2 _ (List.Perm.refl _)).symm.trans e2)).2
    refine ⟨m', h1, ⟨rfl, rfl, fun i j => ?_⟩, k2⟩
    rw [k1.2.2 i j]
    simp
  · have hl : indexPairs dst.rows dst.cols = [] := by
      rw [List.eq_nil_iff_forall_not_mem]
      intro p hp
      rw [mem_indexPairs] at hp
      exact hne ⟨by omega, by omega⟩
    have := h2 _ (List.Perm.refl _)
    rw [hl] at this
    obtain rfl : m = m' := (Prod.mk.inj this).2
    exact ⟨m, h1, ⟨rfl, rfl, fun i j => absurd ⟨i.pos, j.pos⟩ hne⟩, fun _ _ => rfl⟩

end

/-! Loops over vectors and over the diagonal of a matrix -/

/-- **C100**, `diag`. -/
theorem C100_diag {X : MView} {d n : ℕ} (hr : n ≤ X.rows) (hcol : n ≤ X.cols) (hX : Accessible m X)
    (hd : AccessibleVec m d n) (ha : Apart d n X) :
    ParallelKernel (fun sch => diagLoop sch X d n) (List.range n) (diagIter X d) m := by
  obtain ⟨m', h1, h2, -⟩ := safe_writes (List.nodup_range (n := n)) (m := m)
    (body := diagIter X d) (fun i => d + i) (fun i => {d + i, X.addr i i}) (by
      intro i hi j hj hmem
      rw [List.mem_range] at hi hj
      rcases hmem with h | h
      · exact Nat.add_left_cancel h
      · exact (ha i hi ((Set.mem_singleton_iff.1 h) ▸ addr_cells (by omega) (by omega))).elim) (by
      intro i hi
      rw [List.mem_range] at hi
      obtain ⟨x, hx⟩ := hX (X.addr i i) (addr_cells (by omega) (by omega))
      obtain ⟨y, hy⟩ := hd i hi
      exact ⟨_, .load (by simp) hx (.store (by simp) rfl hy (.done _))⟩)
  refine ⟨m', fun sch => ?_, h1⟩
  have := h2 _ (sch.perm _)
  simp only [diagIter, run_load, run_store_done] at this
  exact this

/-- **C100**, `make_diag`. -/
theorem C100_make_diag {out : MView} {x n : ℕ} (hr : n ≤ out.rows) (hcol : n ≤ out.cols) (hdist : Distinct out)
    (hX : Accessible m out) (hx : AccessibleVec m x n) (ha : Apart x n out) :
    ParallelKernel (fun sch => makeDiagLoop sch x n out) (List.range n) (makeDiagIter x out) m := by
  obtain ⟨m', h1, h2, -⟩ := safe_writes (List.nodup_range (n := n)) (m := m)
    (body := makeDiagIter x out) (fun i => out.addr i i) (fun i => {out.addr i i, x + i}) (by
      intro i hi j hj hmem
      rw [List.mem_range] at hi hj
      rcases hmem with h | h
      · exact (addr_inj hdist (by omega) (by omega) (by omega) (by omega) h).1
      · exact (ha j hj ((Set.mem_singleton_iff.1 h) ▸ addr_cells (by omega) (by omega))).elim) (by
      intro i hi
      rw [List.mem_range] at hi
      obtain ⟨y, hy⟩ := hX (out.addr i i) (addr_cells (by omega) (by omega))
      obtain ⟨z, hz⟩ := hx i hi
      exact ⟨_, .load (by simp) hz (.store (by simp) rfl hy (.done _))⟩)
  refine ⟨m', fun sch => ?_, h1⟩
  have := h2 _ (sch.perm _)
  simp only [makeDiagIter, run_load, run_store_done] at this
  exact this

/-- **C100**, filling a new matrix in debug builds: it is filled. -/
theorem C100_fill {dst : MView} (nan : α) (hd : Distinct dst) (hD : Accessible m dst) :
    ∃ m', SafeLoop (indexPairs dst.rows dst.cols) (fillIter dst nan) m m' ∧ (∀ a ∈ cells dst, m' a = some nan) ∧
      SameOutside (cells dst) m m' := by
  obtain ⟨m', h1, h2, h3⟩ := safe_writes (nodup_indexPairs dst.rows dst.cols) (m := m)
    (body := fillIter dst nan) (fun p => dst.addr p.1 p.2) (fun p => {dst.addr p.1 p.2}) (by
      rintro ⟨i, j⟩ hi ⟨i', j'⟩ hj h
      rw [mem_indexPairs] at hi hj
      have := addr_inj hd hi.1 hi.2 hj.1 hj.2 h
      simpa using this) (by
      rintro ⟨i, j⟩ hi
      rw [mem_indexPairs] at hi
      obtain ⟨y, hy⟩ := hD _ (addr_cells hi.1 hi.2)
      exact ⟨_, .store (by simp) rfl hy (.done _)⟩)
  obtain ⟨m2, e, k1, k2⟩ := forEach_matrix (v := dst) _ (List.Perm.refl _) hd (fun _ => nan)
    (fun p => (fillIter dst nan p).run) m (by
      intro p hi hj m1 hm1
      obtain ⟨y, hy⟩ := hD _ (mem_cells hi hj)
      rw [fillIter, run_store_done, addr_eq, store_ok ((keep_at hd hm1 hi hj).trans hy)])
  obtain rfl : m' = m2 := (Prod.mk.inj ((h2 _ (List.Perm.refl _)).symm.trans e)).2
  refine ⟨m', h1, ?_, k2⟩
  rintro a ⟨i, j, hi, hj, rfl⟩
  exact k1.2.2 ⟨i, hi⟩ ⟨j, hj⟩

/-- **C100**, functions of the elements of a vector, stored in place or in another vector. -/
theorem C100_map (f : α → α) {w r n : ℕ} (hw : AccessibleVec m w n) (hr : AccessibleVec m r n)
    (hc : r = w ∨ ∀ i < n, ∀ j < n, w + i ≠ r + j) :
    ∃ m', SafeLoop (List.range n) (mapToIter f w r) m m' ∧
      ∀ i < n, ∀ x, m (w + i) = some x → m' (r + i) = some (f x) := by
  have hF : ∀ i < n, ∀ j < n, r + i = w + j → i = j := by
    intro i hi j hj h
    rcases hc with rfl | hc
    · omega
    · exact (hc j hj i hi h.symm).elim
  obtain ⟨m', h1, h2, -⟩ := safe_writes (List.nodup_range (n := n)) (m := m)
    (body := mapToIter f w r) (fun i => r + i) (fun i => {r + i, w + i}) (by
      intro i hi j hj hmem
      rw [List.mem_range] at hi hj
      rcases hmem with h | h
      · exact Nat.add_left_cancel h
      · exact hF i hi j hj h) (by
      intro i hi
      rw [List.mem_range] at hi
      obtain ⟨x, hx⟩ := hw i hi
      obtain ⟨y, hy⟩ := hr i hi
      exact ⟨_, .load (by simp) hx (.store (by simp) rfl hy (.done _))⟩)
  refine ⟨m', h1, ?_⟩
  intro i hi x hx
  have : Nonempty α := ⟨x⟩
  choose! v hv using hw
  choose! u hu using hr
  obtain ⟨m2, e, k1, -⟩ := forEach_writes (fun i => r + i) (fun i => f (v i)) (fun i => (mapToIter f w r i).run) m
    (List.range n) m List.nodup_range (by intro x _ y _ h; exact Nat.add_left_cancel h) (by
      intro i hi m1 hm1
      rw [List.mem_range] at hi
      have e1 : m1 (w + i) = some (v i) := by
        rw [hm1 _ fun j hj hne h => hne (hF j (List.mem_range.1 hj) i hi h.symm)]
        exact hv i hi
      have e2 : m1 (r + i) = some (u i) := by
        rw [hm1 _ fun j hj hne h => hne (Nat.add_left_cancel h.symm)]
        exact hu i hi
      rw [mapToIter, run_load, load_bind e1, run_store_done, store_ok e2]) (fun _ => rfl)
  obtain rfl : m' = m2 := (Prod.mk.inj ((h2 _ (List.Perm.refl _)).symm.trans e)).2
  rw [k1 i (List.mem_range.2 hi)]
  rw [hv i hi] at hx
  rw [Option.some.inj hx]

theorem mapIter_eq (f : α → α) (w : ℕ) : mapIter f w = mapToIter f w w := rfl

/-- **C100**, Loewdin's inverse square roots. -/
theorem C100_loewdin_aux {m : Mem ℂ} {w n : ℕ} (hw : AccessibleVec m w n) :
    ∃ m', loewdinAuxK w n m = (.ok (), m') ∧
      SafeLoop (List.range n) (mapIter (fun x : ℂ => ((1 / √x.re : ℝ) : ℂ)) w) m m' := by
  obtain ⟨m', h1, h2, -⟩ := safe_writes (List.nodup_range (n := n)) (m := m)
    (body := mapIter (fun x : ℂ => ((1 / √x.re : ℝ) : ℂ)) w) (fun i => w + i) (fun i => {w + i}) (by
      intro i hi j hj h
      exact Nat.add_left_cancel h) (by
      intro i hi
      rw [List.mem_range] at hi
      obtain ⟨x, hx⟩ := hw i hi
      exact ⟨_, .load (by simp) hx (.store (by simp) rfl hx (.done _))⟩)
  refine ⟨m', ?_, h1⟩
  have := h2 _ (List.Perm.refl _)
  simp only [mapIter, run_load, run_store_done] at this
  exact this

/-- **C100**, the diagonal of `delta_eta`. -/
theorem C100_delta_eta {m : Mem ℂ} (E : HostEnv) (kappa : ℝ) {d : MView} {ek n : ℕ} (hr : n ≤ d.rows)
    (hcol : n ≤ d.cols) (hdist : Distinct d) (hX : Accessible m d) (hx : AccessibleVec m ek n) (ha : Apart ek n d) :
    ParallelKernel (fun sch => deltaEtaLoop { E with sch := sch } kappa d ek n) (List.range n)
      (deltaEtaIter kappa d ek) m := by
  obtain ⟨m', h1, h2, -⟩ := safe_writes (List.nodup_range (n := n)) (m := m)
    (body := deltaEtaIter kappa d ek) (fun i => d.addr i i) (fun i => {d.addr i i, ek + i}) (by
      intro i hi j hj hmem
      rw [List.mem_range] at hi hj
      rcases hmem with h | h
      · exact (addr_inj hdist (by omega) (by omega) (by omega) (by omega) h).1
      · exact (ha j hj ((Set.mem_singleton_iff.1 h) ▸ addr_cells (by omega) (by omega))).elim) (by
      intro i hi
      rw [List.mem_range] at hi
      obtain ⟨y, hy⟩ := hX (d.addr i i) (addr_cells (by omega) (by omega))
      obtain ⟨z, hz⟩ := hx i hi
      exact ⟨_, .load (by simp) hy (.load (by simp) hz (.store (by simp) rfl hy (.done _)))⟩)
  refine ⟨m', fun sch => ?_, h1⟩
  have := h2 _ (sch.perm _)
  simp only [deltaEtaIter, run_load, run_store_done] at this
  exact this

theorem gEtaIter3_run (E : HostEnv) (g hij : MView) (n ek fn : ℕ) : gEtaLoop3 E g hij n ek fn =
    forEach (E.sch.order (indexPairs n n)) fun p => (gEtaIter3 g hij ek fn p).run := by
  unfold gEtaLoop3
  congr 1
  funext p
  unfold gEtaIter3
  split
  · rfl
  · simp only [run_load]
    congr 1
    funext ej
    congr 1
    funext ei
    split
    · rfl
    · simp only [run_load, run_store_done]

/-- **C100**, the three loops of the gradient of the pseudo-Hamiltonian. -/
theorem C100_g_eta {m : Mem ℂ} (E : HostEnv) (sf : SmearFns ℝ) (kT mu wk mo dmu dF : ℝ) {g hij : MView}
    {ek fn n : ℕ} (hg : g.rows = n ∧ g.cols = n) (hh : hij.rows = n ∧ hij.cols = n) (hdist : Distinct g)
    (hG : Accessible m g) (hH : Accessible m hij) (hsep : Disjoint (cells hij) (cells g))
    (he : AccessibleVec m ek n) (hf : AccessibleVec m fn n) (hea : Apart ek n g) (hfa : Apart fn n g) :
    ParallelKernel (fun sch => gEtaLoop1 { E with sch := sch } sf kT g hij n mu wk ek mo) (List.range n)
      (gEtaIter1 sf kT g hij mu wk ek mo) m ∧
    (¬ |dmu| < 1 / 10 ^ 12 → ParallelKernel (fun sch => gEtaLoop2 { E with sch := sch } sf kT g n mu wk ek dmu dF mo)
      (List.range n) (gEtaIter2 sf kT g mu wk ek dmu dF mo) m) ∧
    ParallelKernel (fun sch => gEtaLoop3 { E with sch := sch } g hij n ek fn) (indexPairs n n)
      (gEtaIter3 g hij ek fn) m := by
  have cg : ∀ {i j}, i < n → j < n → g.addr i j ∈ cells g := fun hi hj => addr_cells (hg.1 ▸ hi) (hg.2 ▸ hj)
  have ch : ∀ {i j}, i < n → j < n → hij.addr i j ∈ cells hij := fun hi hj => addr_cells (hh.1 ▸ hi) (hh.2 ▸ hj)
  have gi : ∀ {i j i' j'}, i < n → j < n → i' < n → j' < n → g.addr i j = g.addr i' j' → i = i' ∧ j = j' :=
    fun h1 h2 h3 h4 => addr_inj hdist (hg.1 ▸ h1) (hg.2 ▸ h2) (hg.1 ▸ h3) (hg.2 ▸ h4)
  have gh : ∀ {i j i' j'}, i < n → j < n → i' < n → j' < n → g.addr i j ≠ hij.addr i' j' :=
    fun h1 h2 h3 h4 e => Set.disjoint_left.1 hsep (ch h3 h4) (e ▸ cg h1 h2)
  have ge : ∀ {i j k}, i < n → j < n → k < n → g.addr i j ≠ ek + k := fun h1 h2 h3 e => hea _ h3 (e ▸ cg h1 h2)
  have gf : ∀ {i j k}, i < n → j < n → k < n → g.addr i j ≠ fn + k := fun h1 h2 h3 e => hfa _ h3 (e ▸ cg h1 h2)
  refine ⟨?_, fun hdmu => ?_, ?_⟩
  · obtain ⟨m', h1, h2, -⟩ := safe_writes (List.nodup_range (n := n)) (m := m)
      (body := gEtaIter1 sf kT g hij mu wk ek mo) (fun i => g.addr i i)
      (fun i => {g.addr i i, ek + i, hij.addr i i}) (by
        intro i hi j hj hmem
        rw [List.mem_range] at hi hj
        rcases hmem with h | h | h
        · exact (gi hi hi hj hj h).1
        · exact (ge hi hi hj h).elim
        · exact (gh hi hi hj hj h).elim) (by
        intro i hi
        rw [List.mem_range] at hi
        obtain ⟨x, hx⟩ := hG _ (cg hi hi)
        obtain ⟨y, hy⟩ := hH _ (ch hi hi)
        obtain ⟨z, hz⟩ := he i hi
        exact ⟨_, .load (by simp) hz (.load (by simp) hy (.store (by simp) rfl hx (.done _)))⟩)
    refine ⟨m', fun sch => ?_, h1⟩
    have := h2 _ (sch.perm _)
    simp only [gEtaIter1, run_load, run_store_done] at this
    exact this
  · obtain ⟨m', h1, h2, -⟩ := safe_writes (List.nodup_range (n := n)) (m := m)
      (body := gEtaIter2 sf kT g mu wk ek dmu dF mo) (fun i => g.addr i i)
      (fun i => {g.addr i i, ek + i}) (by
        intro i hi j hj hmem
        rw [List.mem_range] at hi hj
        rcases hmem with h | h
        · exact (gi hi hi hj hj h).1
        · exact (ge hi hi hj h).elim) (by
        intro i hi
        rw [List.mem_range] at hi
        obtain ⟨x, hx⟩ := hG _ (cg hi hi)
        obtain ⟨z, hz⟩ := he i hi
        exact ⟨_, .load (by simp) hz (.load (by simp) hx (.store (by simp) rfl hx (.done _)))⟩)
    refine ⟨m', fun sch => ?_, h1⟩
    have := h2 _ (sch.perm _)
    simp only [gEtaIter2, run_load, run_store_done] at this
    simp only [gEtaLoop2, if_neg hdmu]
    exact this
  · obtain ⟨m', h1, h2, -⟩ := safe_writes (nodup_indexPairs n n) (m := m)
      (body := gEtaIter3 g hij ek fn) (fun p => g.addr p.1 p.2)
      (fun p => {g.addr p.1 p.2, ek + p.1, ek + p.2, fn + p.1, fn + p.2, hij.addr p.1 p.2}) (by
        rintro ⟨i, j⟩ hi ⟨i', j'⟩ hj hmem
        rw [mem_indexPairs] at hi hj
        rcases hmem with h | h | h | h | h | h
        · have := gi hi.1 hi.2 hj.1 hj.2 h
          simpa using this
        · exact (ge hi.1 hi.2 hj.1 h).elim
        · exact (ge hi.1 hi.2 hj.2 h).elim
        · exact (gf hi.1 hi.2 hj.1 h).elim
        · exact (gf hi.1 hi.2 hj.2 h).elim
        · exact (gh hi.1 hi.2 hj.1 hj.2 h).elim) (by
        rintro ⟨i, j⟩ hi
        rw [mem_indexPairs] at hi
        obtain ⟨x, hx⟩ := hG _ (cg hi.1 hi.2)
        obtain ⟨y, hy⟩ := hH _ (ch hi.1 hi.2)
        obtain ⟨ei, hei⟩ := he i hi.1
        obtain ⟨ej, hej⟩ := he j hi.2
        obtain ⟨fi, hfi⟩ := hf i hi.1
        obtain ⟨fj, hfj⟩ := hf j hi.2
        unfold gEtaIter3
        by_cases hij' : i = j
        · exact ⟨_, by rw [if_pos hij']; exact .done _⟩
        · simp only [if_neg hij']
          by_cases hs : |ej.re - ei.re| < 1 / 10 ^ 10
          · exact ⟨_, .load (by simp) hej (.load (by simp) hei (by rw [if_pos hs]; exact .done _))⟩
          · exact ⟨_, .load (by simp) hej (.load (by simp) hei (by
              rw [if_neg hs]
              exact .load (by simp) hfj (.load (by simp) hfi (.load (by simp) hx (.load (by simp) hy
                (.store (by simp) rfl hx (.done _)))))))⟩)
    refine ⟨m', fun sch => ?_, h1⟩
    have := h2 _ (sch.perm _)
    simp only [gEtaIter3_run]
    exact this

/-- **C100**, the sums along rows in the inner product of two matrices. -/
theorem C100_inner_product {m : Mem ℂ} (E : HostEnv) {X Y : MView} {tmp : ℕ} (hr : X.rows = Y.rows)
    (hcol : X.cols = Y.cols) (hX : Accessible m X) (hY : Accessible m Y) (ht : AccessibleVec m tmp X.rows)
    (hxa : Apart tmp X.rows X) (hya : Apart tmp X.rows Y) :
    ParallelKernel (fun sch => rowSums { E with sch := sch } X Y tmp) (List.range X.rows) (rowSumIter X Y tmp) m := by
  obtain ⟨m', h1, h2, -⟩ := safe_writes (List.nodup_range (n := X.rows)) (m := m)
    (body := rowSumIter X Y tmp) (fun i => tmp + i)
    (fun i => {a | a = tmp + i ∨ ∃ j < X.cols, a = X.addr i j ∨ a = Y.addr i j}) (by
      intro i hi j hj hmem
      rw [List.mem_range] at hi hj
      rcases hmem with h | ⟨k, hk, h | h⟩
      · exact Nat.add_left_cancel h
      · exact (hxa i hi (h ▸ addr_cells hj hk)).elim
      · exact (hya i hi (h ▸ addr_cells (hr ▸ hj) (hcol ▸ hk))).elim) (by
      intro i hi
      rw [List.mem_range] at hi
      refine ⟨_, Fits.loop _ 4 _ (fun j hj m1 hm1 => ?_) m ?_⟩
      · rw [List.mem_range] at hj
        obtain ⟨s, hs⟩ := hm1 (tmp + i) (.inl rfl)
        obtain ⟨x, hx⟩ := hm1 (X.addr i j) (.inr ⟨j, hj, .inl rfl⟩)
        obtain ⟨y, hy⟩ := hm1 (Y.addr i j) (.inr ⟨j, hj, .inr rfl⟩)
        exact .load (.inl rfl) hs (.load (.inr ⟨j, hj, .inl rfl⟩) hx (.load (.inr ⟨j, hj, .inr rfl⟩) hy
          (.store (.inl rfl) rfl hs (.done _))))
      · rintro a (rfl | ⟨j, hj, rfl | rfl⟩)
        · exact ht i hi
        · exact hX _ (addr_cells hi hj)
        · exact hY _ (addr_cells (hr ▸ hi) (hcol ▸ hj)))
  refine ⟨m', fun sch => ?_, h1⟩
  have := h2 _ (sch.perm _)
  simp only [rowSumIter, Iter.run_loop, run_load, run_store_done] at this
  exact this

/-- The hypotheses hold for matrices of 2 rows and 2 columns at addresses 0 and 10, and for vectors at 20 and 30,
in a memory of 100 numbers. -/
example : ∃ (dst src : MView) (m : Mem ℂ), src.s0 = 1 ∧ src.rows = dst.rows ∧ src.cols = dst.cols ∧ dst.rows = 2 ∧
    dst.cols = 2 ∧ Distinct dst ∧ Compatible dst src ∧ Disjoint (cells src) (cells dst) ∧ Accessible m src ∧
    Accessible m dst ∧ AccessibleVec m 20 2 ∧ AccessibleVec m 30 2 ∧ Apart 20 2 dst ∧ Apart 30 2 dst := by
  have hdisj : Disjoint (cells ⟨0, 2, 2, 1, 2, true⟩) (cells ⟨10, 2, 2, 1, 2, true⟩) := by
    rw [Set.disjoint_left]
    rintro a ⟨i, j, hi, hj, rfl⟩ ⟨i', j', hi', hj', e⟩
    simp only at hi hj hi' hj' e
    omega
  refine ⟨⟨10, 2, 2, 1, 2, true⟩, ⟨0, 2, 2, 1, 2, true⟩, fun a => if a < 100 then some 1 else none, rfl, rfl, rfl, rfl,
    rfl, ?_, .inl hdisj, hdisj, ?_, ?_, ?_, ?_, ?_, ?_⟩
  · intro i j i' j' hi hj hi' hj' e
    simp only at hi hj hi' hj' e
    omega
  · rintro a ⟨i, j, hi, hj, rfl⟩
    simp only at hi hj
    exact ⟨1, if_pos (by simp only; omega)⟩
  · rintro a ⟨i, j, hi, hj, rfl⟩
    simp only at hi hj
    exact ⟨1, if_pos (by simp only; omega)⟩
  · intro i hi
    exact ⟨1, if_pos (by omega)⟩
  · intro i hi
    exact ⟨1, if_pos (by omega)⟩
  · rintro i hi ⟨i', j', hi', hj', e⟩
    simp only at hi' hj' e
    omega
  · rintro i hi ⟨i', j', hi', hj', e⟩
    simp only at hi' hj' e
    omega

/-- The hypothesis on overlap is needed, and a data race is possible in the model: `scale` from a vector of length 2 to
the vector that starts one element later. The first iteration writes what the second one reads. -/
example : ∃ (s : PState (ℕ × ℕ) ℚ), PSteps (indexPairs 2 1) 1
      ⟨axpbyIter ⟨1, 2, 1, 1, 2, true⟩ ⟨0, 2, 1, 1, 2, true⟩ 1 0, fun _ => some 1⟩ s ∧
    DataRace (indexPairs 2 1) s := by
  refine ⟨_, .step (.refl _) (.load (i := (0, 0)) (a := 0) (v := 1)
    (k := fun s => .store 1 (1 * s) .done) (by decide) (by simp [axpbyIter, MView.addr]) rfl), ?_⟩
  refine ⟨(0, 0), by decide, (1, 0), by decide, by decide, 1, ⟨1 * 1, .done, by simp⟩,
    .inl ⟨fun s => .store 2 (1 * s) .done, ?_⟩⟩
  simp [axpbyIter, MView.addr]

end Nlcg
