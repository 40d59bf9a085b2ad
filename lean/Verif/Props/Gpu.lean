import Verif.Proofs.GpuRef
import Verif.Props.Memory

/-! # Properties of the matrix operations on the GPU -/

namespace Nlcg
open Spec Matrix

/-! ## Products and sums -/

section products
variable {R : Type} [CommRing R] [StarRing R] [DecidableEq R]
variable {d : Dev R} {vC vA vB : MView} {r a b : ℕ} {lib : GpuLib R}

/-- **C71**, `inner`, with CUDA and with ROCm: `C <- alpha A^H B + beta C` for all sizes and leading
dimensions, if the library call succeeds. -/
theorem C71_inner (be : Backend) (hok : lib.ok d.calls = true) {A : Matrix (Fin r) (Fin a) R}
    {B : Matrix (Fin r) (Fin b) R} {C : Matrix (Fin a) (Fin b) R} (alpha beta : R)
    (cA : ColMajor vA) (cB : ColMajor vB) (cC : ColMajor vC)
    (hA : Holds d.mem vA A) (hB : Holds d.mem vB B) (hC : Holds d.mem vC C)
    (dA : Disjoint (cells vA) (cells vC)) (dB : Disjoint (cells vB) (cells vC)) :
    GpuComputes (innerG be lib vC vA vB alpha beta) d vC (alpha • (Aᴴ * B) + beta • C) := by
  have h := C44_inner alpha beta cA cB cC hA hB hC dA dB
  unfold innerK at h
  unfold innerG
  rw [if_pos (by simp [cA.single, cB.single, cC.single])] at h ⊢
  simp only [cA.unit, cB.unit, cC.unit, ne_eq, not_true_eq_false, or_self, if_false] at h ⊢
  exact gemmGpu_computes hok h

/-- **C71**, `transform`: `C <- beta C + alpha A B`. -/
theorem C71_transform (be : Backend) (hok : lib.ok d.calls = true) {A : Matrix (Fin r) (Fin a) R}
    {B : Matrix (Fin a) (Fin b) R} {C : Matrix (Fin r) (Fin b) R} (alpha beta : R)
    (cA : ColMajor vA) (cB : ColMajor vB) (cC : ColMajor vC)
    (hA : Holds d.mem vA A) (hB : Holds d.mem vB B) (hC : Holds d.mem vC C)
    (dA : Disjoint (cells vA) (cells vC)) (dB : Disjoint (cells vB) (cells vC)) :
    GpuComputes (transformG be lib vC beta alpha vA vB) d vC (beta • C + alpha • (A * B)) := by
  have h := C44_transform alpha beta cA cB cC hA hB hC dA dB
  unfold transformK at h
  unfold transformG
  rw [if_pos (by simp [cA.single, cB.single, cC.single])] at h ⊢
  simp only [cA.unit, cB.unit, cC.unit, ne_eq, not_true_eq_false, or_self, if_false] at h ⊢
  exact gemmGpu_computes hok h

/-- **C71**, `outer`, for square matrices: `C <- alpha A B^H + beta C`. Other sizes: `C71_not_outer`. -/
theorem C71_outer_partial (be : Backend) (hok : lib.ok d.calls = true) {A B C : Matrix (Fin a) (Fin a) R}
    (alpha beta : R) (cA : ColMajor vA) (cB : ColMajor vB) (cC : ColMajor vC)
    (hA : Holds d.mem vA A) (hB : Holds d.mem vB B) (hC : Holds d.mem vC C)
    (dA : Disjoint (cells vA) (cells vC)) (dB : Disjoint (cells vB) (cells vC)) :
    GpuComputes (outerG be lib vC vA vB alpha beta) d vC (alpha • (A * Bᴴ) + beta • C) := by
  have h := C44_outer_partial alpha beta cA cB cC hA hB hC dA dB
  unfold outerK at h
  unfold outerG
  rw [if_pos (by simp [cA.single, cB.single, cC.single])] at h ⊢
  simp only [cA.unit, cB.unit, cC.unit, ne_eq, not_true_eq_false, or_self, if_false] at h ⊢
  exact gemmGpu_computes hok h

/-- **C71** fails for `outer` with matrices that are not square, as on the host (`C44_not_outer`): two
columns of length 2, the product of which is 2 by 2; an address outside the matrices is read. -/
theorem C71_not_outer (be : Backend) (alpha beta : R) (hl : NoFailure lib) :
    ∃ (d : Dev R) (vA vB vC : MView) (A B : Matrix (Fin 2) (Fin 1) R) (C : Matrix (Fin 2) (Fin 2) R),
      ColMajor vA ∧ ColMajor vB ∧ ColMajor vC ∧ Holds d.mem vA A ∧ Holds d.mem vB B ∧ Holds d.mem vC C ∧
      Disjoint (cells vA) (cells vC) ∧ Disjoint (cells vB) (cells vC) ∧
      (outerG be lib vC vA vB alpha beta d).1 = .ub := by
  obtain ⟨m, vA, vB, vC, A, B, C, cA, cB, cC, hA, hB, hC, dA, dB, h, -⟩ := C44_not_outer (R := R) alpha beta
  refine ⟨⟨m, [], 0, []⟩, vA, vB, vC, A, B, C, cA, cB, cC, hA, hB, hC, dA, dB, ?_⟩
  have hok : lib.ok 0 = true := hl 0
  unfold outerK at h
  unfold outerG
  rw [if_pos (by simp [cA.single, cB.single, cC.single])] at h ⊢
  simp only [cA.unit, cB.unit, cC.unit, ne_eq, not_true_eq_false, or_self, if_false] at h ⊢
  simp only [gemmGpu, SM.bind_apply, GpuLib.call, hok]
  have h' := h
  rw [gemm] at h'
  split at h'
  · simp at h'
  · rename_i hv
    rw [if_neg (by simpa using hv)]
    simp [onMem, h]

omit [StarRing R] [DecidableEq R] in
/-- the loop of `geam` -/
theorem geam_loop_computes [DecidableEq R] (sch : Sched) {m : Mem R} {A C : Matrix (Fin r) (Fin a) R}
    (alpha beta : R) (cA : ColMajor vA) (cC : ColMajor vC) (hA : Holds m vA A) (hC : Holds m vC C)
    (hd : Compatible vC vA) :
    Computes (forEach (sch.order (indexPairs vA.rows vC.cols)) fun p => do
      let x ← load (vA.data + (p.1 + vA.s1 * p.2))
      if beta = 0 then store (vC.data + (p.1 + vC.s1 * p.2)) (alpha * x)
      else do
        let y ← load (vC.data + (p.1 + vC.s1 * p.2))
        store (vC.data + (p.1 + vC.s1 * p.2)) (alpha * x + beta * y)) m vC (beta • C + alpha • A) := by
  obtain ⟨cr, cc, _⟩ := id hC
  subst cr cc
  rw [hA.1]
  refine Computes.congr (elementwise (m := m) (src := vA) sch cC.inj hd hA.1 hA.2.1
    (fun p => alpha * ext A p.1 p.2 + beta * ext C p.1 p.2) _ ?_) (by simp [add_comm])
  intro p h1 h2 m' _ e1 e2
  have hx := e2.trans (hC.ext_at h1 h2)
  rw [colAddr_eq cA.unit, colAddr_eq cC.unit,
    load_bind (e1.trans (hA.ext_at (hA.1.symm ▸ h1) (hA.2.1.symm ▸ h2)))]
  by_cases hb : beta = 0
  · rw [if_pos hb, store_ok hx]
    simp [hb]
  · rw [if_neg hb, load_bind hx, store_ok hx]

/-- **C71**, `add`: `C <- beta C + alpha A`, for separate matrices and for `A` the same as `C`. -/
theorem C71_add (be : Backend) (sch : Sched) (hok : lib.ok d.calls = true)
    {A C : Matrix (Fin r) (Fin a) R} (alpha beta : R)
    (cA : ColMajor vA) (cC : ColMajor vC) (hA : Holds d.mem vA A) (hC : Holds d.mem vC C)
    (hd : (Disjoint (cells vA) (cells vC) ∧ vA.data ≠ vC.data) ∨ vA = vC) :
    GpuComputes (addG be lib sch vC vA alpha beta) d vC (beta • C + alpha • A) := by
  obtain ⟨x, m', e, h1, h2⟩ := geam_loop_computes (m := d.mem) sch alpha beta cA cC hA hC
    (hd.imp And.left id)
  refine ⟨x, { d with mem := m', calls := d.calls + 1 }, ?_, h1, h2, rfl⟩
  unfold addG
  rw [if_pos (by simp [cA.single, cC.single])]
  simp only [cA.unit, cC.unit, ne_eq, not_true_eq_false, or_self, if_false]
  simp only [geamGpu, SM.bind_apply, GpuLib.call, hok]
  rw [if_neg]
  · simp only [onMem]
    rw [e]
  · have := cA.pos
    have := cA.lead
    have := cC.pos
    have := cC.lead
    have e1 : vC.rows = vA.rows := hC.1.trans hA.1.symm
    rcases hd with ⟨-, hne⟩ | rfl
    · simp [Ne.symm hne]
      omega
    · simp
      omega

end products

/-- **C71**: `add` with `beta = 0` overwrites the result whatever it contained; the scalars obey no laws, so
this includes NaN. (The host's `add` reads it, see `C45_not_add`.) -/
theorem C71_add_overwrites {α : Type} [Add α] [Mul α] [Zero α] [Star α] [DecidableEq α] (be : Backend)
    (sch : Sched) {lib : GpuLib α} {d : Dev α} (hok : lib.ok d.calls = true) {vA vC : MView} {r a : ℕ}
    {A : Matrix (Fin r) (Fin a) α} (alpha : α) (cA : ColMajor vA) (cC : ColMajor vC)
    (hA : Holds d.mem vA A) (hr : vC.rows = r) (hc : vC.cols = a) (hacc : Accessible d.mem vC)
    (hd : Disjoint (cells vA) (cells vC)) (hne : vA.data ≠ vC.data) :
    GpuComputes (addG be lib sch vC vA alpha 0) d vC fun i j => alpha * A i j := by
  subst hr hc
  have key : Computes (forEach (sch.order (indexPairs vA.rows vC.cols)) fun p => do
      let x ← load (vA.data + (p.1 + vA.s1 * p.2))
      store (vC.data + (p.1 + vC.s1 * p.2)) (alpha * x)) d.mem vC fun i j => alpha * A i j := by
    rw [hA.1]
    refine Computes.congr (elementwise (m := d.mem) (src := vA) sch cC.inj (.inl hd) hA.1 hA.2.1
      (fun p => alpha * ext A p.1 p.2) _ ?_) (by simp)
    intro p h1 h2 m' _ e1 e2
    obtain ⟨x, hx⟩ := hacc _ (mem_cells h1 h2)
    rw [colAddr_eq cA.unit, colAddr_eq cC.unit,
      load_bind (e1.trans (hA.ext_at (hA.1.symm ▸ h1) (hA.2.1.symm ▸ h2))), store_ok (e2.trans hx)]
  obtain ⟨x, m', e, h1, h2⟩ := key
  refine ⟨x, { d with mem := m', calls := d.calls + 1 }, ?_, h1, h2, rfl⟩
  unfold addG
  rw [if_pos (by simp [cA.single, cC.single])]
  simp only [cA.unit, cC.unit, ne_eq, not_true_eq_false, or_self, if_false]
  simp only [geamGpu, SM.bind_apply, GpuLib.call, hok]
  rw [if_neg]
  · simp only [onMem, if_true]
    rw [e]
  · have := cA.pos
    have := cA.lead
    have := cC.pos
    have := cC.lead
    have e1 : vC.rows = vA.rows := hA.1.symm
    simp [Ne.symm hne]
    omega

/-! ## Eigenvalues -/

section eigen
variable {n : ℕ} {A : Matrix (Fin n) (Fin n) ℂ} {vU vS : MView} {w : ℕ}

/-- **C71**, `eigh` with CUDA: if the library calls succeed and the solver converges, `U` and `w` hold the
eigenvectors and eigenvalues of `S`, and nothing else changes. -/
theorem C71_eigh_cuda {lib : GpuLib ℂ} (sch : Sched) {d : Dev ℂ} (hl : NoFailure lib)
    (hs : EigenSolver lib.zheevd) (hc : Converges lib.zheevd A) (hA : A.IsHermitian)
    (cU : ColMajor vU) (hS : Holds d.mem vS A) (lS : vS.isLocal = true) (rU : vU.rows = n)
    (kU : vU.cols = n) (aU : Accessible d.mem vU) (aw : ∀ a ∈ vecCells w n, ∃ x, d.mem a = some x)
    (dUS : Disjoint (cells vS) (cells vU)) (dUw : Disjoint (cells vU) (vecCells w n)) :
    ∃ d', eighCuda lib sch vU w vS d = (.ok (), d') ∧ HoldsEigen d'.mem vU w A ∧
      SameOutside (cells vU ∪ vecCells w n) d.mem d'.mem := by
  obtain ⟨x, m1, e1, h1, o1⟩ := deepCopy_computes sch cU.inj (.inl dUS) hS rU kU aU
  have aw1 : ∀ a ∈ vecCells w n, ∃ x, m1 a = some x := fun a ha => by
    rw [o1 a (Set.disjoint_right.1 dUw ha)]; exact aw a ha
  have o := (o1.trans (hs.confined n vU w m1 cU rU kU).1).mono (T := cells vU ∪ vecCells w n) (by simp)
  have run : ∃ live, eighCuda lib sch vU w vS d = (.ok (), { d with
      mem := (lib.zheevd n vU.data vU.s1 w m1).1, calls := d.calls + 6, live := live }) := by
    refine ⟨(d.live ++ ([⟨d.calls + 1, lib.lwork n * 16⟩, ⟨d.calls + 2, 4⟩] : List DevBlock)).filter
      fun b => b.addr ≠ d.calls + 1, ?_⟩
    unfold eighCuda cudaZheevd
    rw [if_pos (by simp [cU.single, lS])]
    simp only [SM.bind_apply, onMem, e1, cudaSolver_run hl, rU]
    rfl
  obtain ⟨live, run⟩ := run
  exact ⟨_, run, hs.solves n vU w m1 A cU h1 hA aw1 dUw (hc vU w m1 cU h1), o⟩

/-- **C71**, `eigh` with ROCm: the same, with the eigensolver of the host working on copies; nothing of the
copies remains. -/
theorem C71_eigh_rocm {lib : HostLib ℂ} (sch : Sched) {d : Dev ℂ} {bases : Fin 3 → ℕ} (garbage : ℕ → ℂ)
    (hs : EigenSolver lib.zheevd) (hc : Converges lib.zheevd A) (hA : A.IsHermitian) (hn : 0 < n)
    (cU : ColMajor vU) (hS : Holds d.mem vS A) (lS : vS.isLocal = true) (rU : vU.rows = n)
    (kU : vU.cols = n) (aU : Accessible d.mem vU) (aw : ∀ a ∈ vecCells w n, ∃ x, d.mem a = some x)
    (dUS : Disjoint (cells vS) (cells vU)) (dUw : Disjoint (cells vU) (vecCells w n))
    (f0 : Free d.mem (bases 0) n) (f1 : Free d.mem (bases 1) (n * n)) (f2 : Free d.mem (bases 2) (n * n))
    (d01 : Disjoint (vecCells (bases 0) n) (vecCells (bases 1) (n * n)))
    (d02 : Disjoint (vecCells (bases 0) n) (vecCells (bases 2) (n * n)))
    (d12 : Disjoint (vecCells (bases 1) (n * n)) (vecCells (bases 2) (n * n))) :
    ∃ d', eighRocm lib sch vU w n vS bases garbage d = (.ok (), d') ∧ HoldsEigen d'.mem vU w A ∧
      SameOutside (cells vU ∪ vecCells w n) d.mem d'.mem := by
  -- separation of what is in use from the new blocks
  have sU := fun {b k} (h : Free d.mem b k) => h.disjoint (S := cells vU) aU
  have sS := fun {b k} (h : Free d.mem b k) => h.disjoint (S := cells vS) hS.accessible
  have sw := fun {b k} (h : Free d.mem b k) => h.disjoint (S := vecCells w n) aw
  obtain ⟨rS, kS, -⟩ := id hS
  -- U <- S
  obtain ⟨_, m1, e1, h1, o1⟩ := deepCopy_computes sch cU.inj (.inl dUS) hS rU kU aU
  -- w_host
  obtain ⟨m2, e2, o2, g2⟩ : ∃ m2, allocate (bases 0) n garbage m1 = (.ok (), m2) ∧
      SameOutside (vecCells (bases 0) n) m1 m2 ∧ ∀ a ∈ vecCells (bases 0) n, ∃ x, m2 a = some x :=
    ⟨_, rfl, allocate_outside _ _ _ _, fun a ha => ⟨garbage a, if_pos ha⟩⟩
  have o02 := o1.trans o2
  obtain ⟨x, hx⟩ := HoldsVec.exists aw
  have hx2 : HoldsVec m2 w x := hx.frame o02 (by
    rw [Set.disjoint_union_right]; exact ⟨dUw.symm, sw f0⟩)
  obtain ⟨m3, e3, h3, o3⟩ := copyVec_ok hx2 g2 (sw f0).symm
  have o03 : SameOutside (cells vU ∪ vecCells (bases 0) n) d.mem m3 := (o02.trans o3).mono (by simp)
  -- S_host
  obtain ⟨m4, e4, o4, g4⟩ : ∃ m4, allocate (bases 1) (n * n) garbage m3 = (.ok (), m4) ∧
      SameOutside (vecCells (bases 1) (n * n)) m3 m4 ∧
      ∀ a ∈ vecCells (bases 1) (n * n), ∃ x, m4 a = some x :=
    ⟨_, rfl, allocate_outside _ _ _ _, fun a ha => ⟨garbage a, if_pos ha⟩⟩
  have hS4 : Holds m4 vS A := hS.frame (o03.trans o4) (by
    rw [Set.disjoint_union_right, Set.disjoint_union_right]; exact ⟨⟨dUS, sS f0⟩, sS f1⟩)
  have cH : ∀ b, ColMajor ⟨b, n, n, 1, n, true⟩ := fun b => ⟨rfl, le_rfl, hn, rfl⟩
  obtain ⟨_, m5, e5, h5, o5⟩ := deepCopy_computes sch (dst := ⟨bases 1, n, n, 1, n, true⟩) (cH _).inj
    (.inl (by rw [cells_vec]; exact sS f1)) hS4 rfl rfl (by
      intro a ha; rw [cells_vec] at ha; exact g4 a ha)
  rw [cells_vec] at o5
  have o05 : SameOutside (cells vU ∪ vecCells (bases 0) n ∪ vecCells (bases 1) (n * n)) d.mem m5 :=
    ((o03.trans o4).trans o5).mono (by simp)
  -- U_host
  obtain ⟨m6, e6, o6, g6⟩ : ∃ m6, allocate (bases 2) (n * n) garbage m5 = (.ok (), m6) ∧
      SameOutside (vecCells (bases 2) (n * n)) m5 m6 ∧
      ∀ a ∈ vecCells (bases 2) (n * n), ∃ x, m6 a = some x :=
    ⟨_, rfl, allocate_outside _ _ _ _, fun a ha => ⟨garbage a, if_pos ha⟩⟩
  have h6 : Holds m6 ⟨bases 1, n, n, 1, n, true⟩ A := h5.frame o6 (by rw [cells_vec]; exact d12)
  obtain ⟨_, m7, e7, h7, o7⟩ := deepCopy_computes sch (dst := ⟨bases 2, n, n, 1, n, true⟩)
    (src := ⟨bases 1, n, n, 1, n, true⟩) (cH _).inj
    (.inl (by rw [cells_vec, cells_vec]; exact d12)) h6 rfl rfl (by
      intro a ha; rw [cells_vec] at ha; exact g6 a ha)
  rw [cells_vec] at o7
  have o57 : SameOutside (vecCells (bases 2) (n * n)) m5 m7 := (o6.trans o7).mono (by simp)
  have h37 : HoldsVec m7 (bases 0) x := (h3.frame (o4.trans o5) (by simpa using d01)).frame o57 d02
  -- the solver
  have a8 : ∀ a ∈ vecCells (bases 0) n, ∃ x, m7 a = some x := by
    intro a ha
    exact ⟨x ⟨a - bases 0, by have := ha.1; have := ha.2; omega⟩, by
      have := h37 ⟨a - bases 0, by have := ha.1; have := ha.2; omega⟩
      rwa [show bases 0 + (⟨a - bases 0, _⟩ : Fin n).1 = a by have := ha.1; simp; omega] at this⟩
  obtain ⟨Q, ω, hQ, hQ8, hω8⟩ := hs.solves n ⟨bases 2, n, n, 1, n, true⟩ (bases 0) m7 A (cH _) h7 hA a8
    (by rw [cells_vec]; exact d02.symm) (hc _ _ _ (cH _) h7)
  obtain ⟨o8, -⟩ := hs.confined n ⟨bases 2, n, n, 1, n, true⟩ (bases 0) m7 (cH _) rfl rfl
  rw [cells_vec] at o8
  generalize e8 : (lib.zheevd n (bases 2) n (bases 0) m7).1 = m8 at hQ8 hω8 o8
  have o08 : SameOutside (cells vU ∪ vecCells (bases 0) n ∪ vecCells (bases 1) (n * n) ∪
      vecCells (bases 2) (n * n)) d.mem m8 := ((o05.trans o57).trans o8).mono (by
    intro a; simp only [Set.mem_union]; tauto)
  -- w <- w_host
  have w8 : ∀ a ∈ vecCells w n, ∃ x, m8 a = some x := by
    intro a ha
    rw [o08 a ?_]
    · exact aw a ha
    · rintro (((h | h) | h) | h)
      · exact Set.disjoint_left.1 dUw h ha
      · exact Set.disjoint_left.1 (sw f0) ha h
      · exact Set.disjoint_left.1 (sw f1) ha h
      · exact Set.disjoint_left.1 (sw f2) ha h
  obtain ⟨m9, e9, h9, o9⟩ := copyVec_ok hω8 w8 (sw f0)
  -- U <- U_host
  have aU9 : Accessible m9 vU := by
    intro a ha
    have k1 : m9 a = m1 a := by
      rw [o9 a (Set.disjoint_left.1 dUw ha), o8 a ?_, o57 a (Set.disjoint_left.1 (sU f2) ha),
        o5 a (Set.disjoint_left.1 (sU f1) ha), o4 a (Set.disjoint_left.1 (sU f1) ha),
        o3 a (Set.disjoint_left.1 (sU f0) ha), o2 a (Set.disjoint_left.1 (sU f0) ha)]
      rintro (h | h)
      · exact Set.disjoint_left.1 (sU f2) ha h
      · exact Set.disjoint_left.1 (sU f0) ha h
    rw [k1]
    exact h1.accessible a ha
  have hQ9 : Holds m9 ⟨bases 2, n, n, 1, n, true⟩ Q := hQ8.frame o9 (by rw [cells_vec]; exact (sw f2).symm)
  obtain ⟨_, m10, e10, h10, o10⟩ := deepCopy_computes sch (dst := vU) (src := ⟨bases 2, n, n, 1, n, true⟩)
    cU.inj (.inl (by rw [cells_vec]; exact (sU f2).symm)) hQ9 rU kU aU9
  -- the end
  obtain ⟨m13, e13, k13, l13⟩ : ∃ m13 : Mem ℂ, (release (bases 0) n >>= fun _ => release (bases 1) (n * n) >>=
      fun _ => release (bases 2) (n * n)) m10 = (.ok (), m13) ∧
      (∀ a, a ∉ vecCells (bases 0) n → a ∉ vecCells (bases 1) (n * n) → a ∉ vecCells (bases 2) (n * n) →
        m13 a = m10 a) ∧
      (∀ a, a ∈ vecCells (bases 0) n ∨ a ∈ vecCells (bases 1) (n * n) ∨ a ∈ vecCells (bases 2) (n * n) →
        m13 a = none) := by
    refine ⟨_, rfl, ?_, ?_⟩
    · intro a h0 h1 h2
      exact (if_neg h2).trans ((if_neg h1).trans (if_neg h0))
    · intro a h
      simp only [vecCells, Set.mem_ofPred_eq] at h
      grind
  have z13 : SameOutside (vecCells (bases 0) n ∪ vecCells (bases 1) (n * n) ∪ vecCells (bases 2) (n * n))
      m10 m13 := fun a ha => k13 a (fun h => ha (.inl (.inl h))) (fun h => ha (.inl (.inr h)))
        fun h => ha (.inr h)
  refine ⟨{ d with mem := m13 }, ?_, ⟨Q, ω, hQ, h10.frame z13 ?_, (h9.frame o10 dUw.symm).frame z13 ?_⟩, ?_⟩
  · unfold eighRocm mirror
    rw [if_pos (by simp [cU.single, lS])]
    simp only [rS, kS, lS, onMem]
    have run : (do
        deepCopyK sch vU vS
        allocate (bases 0) n garbage
        copyVec (bases 0) w n
        let sHost ← (do
          allocate (bases 1) (n * n) garbage
          deepCopyK sch ⟨bases 1, n, n, 1, n, true⟩ vS
          pure ⟨bases 1, n, n, 1, n, true⟩ : MemM ℂ MView)
        allocate (bases 2) (n * n) garbage
        deepCopyK sch ⟨bases 2, n, n, 1, n, true⟩ sHost
        let m ← SM.get
        SM.modify fun _ => (lib.zheevd n (bases 2) n (bases 0) m).1
        copyVec w (bases 0) n
        deepCopyK sch vU ⟨bases 2, n, n, 1, n, true⟩
        release (bases 0) n
        release (bases 1) (n * n)
        release (bases 2) (n * n) : MemM ℂ Unit) d.mem = (.ok (), m13) := by
      rw [ok_bind e1, ok_bind e2, ok_bind e3, ok_bind (p := (do
          allocate (bases 1) (n * n) garbage
          deepCopyK sch ⟨bases 1, n, n, 1, n, true⟩ vS
          pure ⟨bases 1, n, n, 1, n, true⟩ : MemM ℂ MView)) (by rw [ok_bind e4, ok_bind e5]; rfl),
        ok_bind e6, ok_bind e7, SM.get_bind, ok_bind (SM.modify_apply _ _), e8, ok_bind e9, ok_bind e10]
      exact e13
    rw [run]
  · simp only [Set.disjoint_union_right]
    exact ⟨⟨sU f0, sU f1⟩, sU f2⟩
  · simp only [Set.disjoint_union_right]
    exact ⟨⟨sw f0, sw f1⟩, sw f2⟩
  · intro a ha
    have nU : a ∉ cells vU := fun h => ha (.inl h)
    have nw : a ∉ vecCells w n := fun h => ha (.inr h)
    show m13 a = d.mem a
    by_cases hb : a ∈ vecCells (bases 0) n ∨ a ∈ vecCells (bases 1) (n * n) ∨ a ∈ vecCells (bases 2) (n * n)
    · rw [l13 a hb]
      rcases hb with hb | hb | hb
      · exact (f0 a hb.1 hb.2).symm
      · exact (f1 a hb.1 hb.2).symm
      · exact (f2 a hb.1 hb.2).symm
    · push Not at hb
      rw [k13 a hb.1 hb.2.1 hb.2.2, o10 a nU, o9 a nw, o08 a]
      rintro (((h | h) | h) | h)
      · exact nU h
      · exact hb.1 h
      · exact hb.2.1 h
      · exact hb.2.2 h

/-- **C71**, `eigh` of the host, for comparison -/
theorem C71_eigh_host {lib : HostLib ℂ} (sch : Sched) {m : Mem ℂ} (hs : EigenSolver lib.zheevd)
    (hc : Converges lib.zheevd A) (hA : A.IsHermitian)
    (cU : ColMajor vU) (hS : Holds m vS A) (lS : vS.isLocal = true) (rU : vU.rows = n)
    (kU : vU.cols = n) (aU : Accessible m vU) (aw : ∀ a ∈ vecCells w n, ∃ x, m a = some x)
    (dUS : Disjoint (cells vS) (cells vU)) (dUw : Disjoint (cells vU) (vecCells w n)) :
    ∃ m', eighHost lib sch vU w vS m = (.ok (), m') ∧ HoldsEigen m' vU w A ∧
      SameOutside (cells vU ∪ vecCells w n) m m' := by
  obtain ⟨x, m1, e1, h1, o1⟩ := deepCopy_computes sch cU.inj (.inl dUS) hS rU kU aU
  have aw1 : ∀ a ∈ vecCells w n, ∃ x, m1 a = some x := fun a ha => by
    rw [o1 a (Set.disjoint_right.1 dUw ha)]; exact aw a ha
  refine ⟨_, ?_, hs.solves n vU w m1 A cU h1 hA aw1 dUw (hc vU w m1 cU h1),
    (o1.trans (hs.confined n vU w m1 cU rU kU).1).mono (by simp)⟩
  unfold eighHost
  rw [if_pos lS, ok_bind e1, SM.get_bind]
  simp only [kU, SM.bind_apply, SM.modify_apply]
  rw [if_neg (by simpa using hc vU w m1 cU h1)]
  rfl

end eigen

/-! ## Linear systems -/

section solve
open scoped ComplexOrder
variable {n k : ℕ} {A : Matrix (Fin n) (Fin n) ℂ} {B : Matrix (Fin n) (Fin k) ℂ} {vA vB : MView}

/-- **C71**, `solve_sym` with CUDA: the right-hand side is replaced by the solution of `A X = B`. -/
theorem C71_solve_cuda {lib : GpuLib ℂ} {d : Dev ℂ} (hl : NoFailure lib)
    (hs : CholeskySolver lib.zpotrf lib.zpotrs) (hA : A.PosDef) (cA : ColMajor vA) (cB : ColMajor vB)
    (iA : Holds d.mem vA A) (iB : Holds d.mem vB B) (dis : Disjoint (cells vA) (cells vB)) :
    ∃ d' X, solveSymCuda lib vA vB d = (.ok (), d') ∧ Holds d'.mem vB X ∧ A * X = B ∧
      SameOutside (cells vA ∪ cells vB) d.mem d'.mem := by
  obtain ⟨m', F, X, e, -, hX, hAX, o⟩ := hs n k vA vB d.mem A B cA cB iA iB dis hA
  obtain ⟨d', hd, hm⟩ : ∃ d', solveSymCuda lib vA vB d = (.ok (), d') ∧ d'.mem = m' := by
    unfold solveSymCuda cudaPotrf
    rw [if_pos (by simp [cA.single, cB.single])]
    simp only [SM.bind_apply, cudaSolver_run hl, cudaPotrs_run hl, iA.1, iB.2.1]
    exact ⟨_, rfl, e⟩
  exact ⟨d', X, hd, hm ▸ hX, hAX, hm ▸ o⟩

/-- **C71**, `solve_sym` of the host -/
theorem C71_solve_host {lib : HostLib ℂ} {m : Mem ℂ}
    (hs : CholeskySolver lib.zpotrf lib.zpotrs) (hA : A.PosDef) (cA : ColMajor vA) (cB : ColMajor vB)
    (iA : Holds m vA A) (iB : Holds m vB B) (dis : Disjoint (cells vA) (cells vB)) :
    ∃ m' F X, solveSymHost lib vA vB m = (.ok (), m') ∧ Holds m' vA (F : Matrix (Fin n) (Fin n) ℂ) ∧
      Holds m' vB X ∧ A * X = B ∧ SameOutside (cells vA ∪ cells vB) m m' := by
  obtain ⟨m', F, X, e, hF, hX, hAX, o⟩ := hs n k vA vB m A B cA cB iA iB dis hA
  refine ⟨m', F, X, ?_, hF, hX, hAX, o⟩
  unfold solveSymHost
  rw [if_pos (by simp [cA.single, cB.single]), if_neg (by simp [cA.unit, cB.unit]), SM.get_bind,
    ok_bind (SM.modify_apply _ _), SM.get_bind, SM.modify_apply, ← e, iA.1, iB.2.1]

/-- **C71**, `solve_sym` with ROCm: the same by way of copies in host memory, of which nothing remains. -/
theorem C71_solve_rocm {lib : HostLib ℂ} (sch : Sched) {d : Dev ℂ} {bases : Fin 2 → ℕ} (garbage : ℕ → ℂ)
    (hs : CholeskySolver lib.zpotrf lib.zpotrs) (hA : A.PosDef) (hn : 0 < n)
    (cA : ColMajor vA) (cB : ColMajor vB)
    (iA : Holds d.mem vA A) (iB : Holds d.mem vB B) (dis : Disjoint (cells vA) (cells vB))
    (f0 : Free d.mem (bases 0) (n * n)) (f1 : Free d.mem (bases 1) (n * k))
    (d01 : Disjoint (vecCells (bases 0) (n * n)) (vecCells (bases 1) (n * k))) :
    ∃ d' X, solveSymRocm lib sch vA vB bases garbage d = (.ok (), d') ∧ Holds d'.mem vB X ∧ A * X = B ∧
      SameOutside (cells vA ∪ cells vB) d.mem d'.mem := by
  have sA := fun {b l} (h : Free d.mem b l) => h.disjoint (S := cells vA) iA.accessible
  have sB := fun {b l} (h : Free d.mem b l) => h.disjoint (S := cells vB) iB.accessible
  obtain ⟨rA, kA, -⟩ := id iA
  obtain ⟨rB, kB, -⟩ := id iB
  have cH : ∀ b c, ColMajor ⟨b, n, c, 1, n, true⟩ := fun b c => ⟨rfl, le_rfl, hn, rfl⟩
  -- A_host
  obtain ⟨m1, e1, o1, g1⟩ : ∃ m1, allocate (bases 0) (n * n) garbage d.mem = (.ok (), m1) ∧
      SameOutside (vecCells (bases 0) (n * n)) d.mem m1 ∧
      ∀ a ∈ vecCells (bases 0) (n * n), ∃ x, m1 a = some x :=
    ⟨_, rfl, allocate_outside _ _ _ _, fun a ha => ⟨garbage a, if_pos ha⟩⟩
  obtain ⟨_, m2, e2, h2, o2⟩ := deepCopy_computes sch (dst := ⟨bases 0, n, n, 1, n, true⟩) (cH _ _).inj
    (.inl (by rw [cells_vec]; exact sA f0)) (iA.frame o1 (sA f0)) rfl rfl (by
      intro a ha; rw [cells_vec] at ha; exact g1 a ha)
  rw [cells_vec] at o2
  have o02 : SameOutside (vecCells (bases 0) (n * n)) d.mem m2 := (o1.trans o2).mono (by simp)
  -- RHS_host
  obtain ⟨m3, e3, o3, g3⟩ : ∃ m3, allocate (bases 1) (n * k) garbage m2 = (.ok (), m3) ∧
      SameOutside (vecCells (bases 1) (n * k)) m2 m3 ∧
      ∀ a ∈ vecCells (bases 1) (n * k), ∃ x, m3 a = some x :=
    ⟨_, rfl, allocate_outside _ _ _ _, fun a ha => ⟨garbage a, if_pos ha⟩⟩
  obtain ⟨_, m4, e4, h4, o4⟩ := deepCopy_computes sch (dst := ⟨bases 1, n, k, 1, n, true⟩) (cH _ _).inj
    (.inl (by rw [cells_vec]; exact sB f1)) ((iB.frame o02 (sB f0)).frame o3 (sB f1)) rfl rfl (by
      intro a ha; rw [cells_vec] at ha; exact g3 a ha)
  rw [cells_vec] at o4
  have o24 : SameOutside (vecCells (bases 1) (n * k)) m2 m4 := (o3.trans o4).mono (by simp)
  -- the solver
  obtain ⟨m5, F, X, e5, hF, hX, hAX, o5⟩ := C71_solve_host (m := m4) hs hA (cH (bases 0) n) (cH (bases 1) k)
    (h2.frame o24 (by rw [cells_vec]; exact d01)) h4 (by rw [cells_vec, cells_vec]; exact d01)
  rw [cells_vec, cells_vec] at o5
  have o05 : SameOutside (vecCells (bases 0) (n * n) ∪ vecCells (bases 1) (n * k)) d.mem m5 :=
    ((o02.trans o24).trans o5).mono (by simp)
  -- back
  have iA5 := iA.frame o05 (by rw [Set.disjoint_union_right]; exact ⟨sA f0, sA f1⟩)
  have iB5 := iB.frame o05 (by rw [Set.disjoint_union_right]; exact ⟨sB f0, sB f1⟩)
  obtain ⟨_, m6, e6, h6, o6⟩ := deepCopy_computes sch (dst := vA) (src := ⟨bases 0, n, n, 1, n, true⟩)
    cA.inj (.inl (by rw [cells_vec]; exact (sA f0).symm)) hF rA kA iA5.accessible
  have hX6 := hX.frame o6 (by rw [cells_vec]; exact (sA f1).symm)
  obtain ⟨_, m7, e7, h7, o7⟩ := deepCopy_computes sch (dst := vB) (src := ⟨bases 1, n, k, 1, n, true⟩)
    cB.inj (.inl (by rw [cells_vec]; exact (sB f1).symm)) hX6 rB kB (iB5.frame o6 dis.symm).accessible
  -- the end
  obtain ⟨m9, e9, k9, l9⟩ : ∃ m9 : Mem ℂ, (release (bases 0) (n * n) >>= fun _ => release (bases 1) (n * k))
      m7 = (.ok (), m9) ∧
      (∀ a, a ∉ vecCells (bases 0) (n * n) → a ∉ vecCells (bases 1) (n * k) → m9 a = m7 a) ∧
      (∀ a, a ∈ vecCells (bases 0) (n * n) ∨ a ∈ vecCells (bases 1) (n * k) → m9 a = none) := by
    refine ⟨_, rfl, ?_, ?_⟩
    · intro a h0 h1
      exact (if_neg h1).trans (if_neg h0)
    · intro a h
      simp only [vecCells, Set.mem_ofPred_eq] at h
      grind
  refine ⟨{ d with mem := m9 }, X, ?_, h7.frame (S := vecCells (bases 0) (n * n) ∪ vecCells (bases 1) (n * k))
    (fun a ha => k9 a (fun h => ha (.inl h)) fun h => ha (.inr h)) ?_, hAX, ?_⟩
  · unfold solveSymRocm mirror
    simp only [rA, kA, rB, kB, cA.single, cB.single, onMem]
    have run : (do
        let aHost ← (do
          allocate (bases 0) (n * n) garbage
          deepCopyK sch ⟨bases 0, n, n, 1, n, true⟩ vA
          pure ⟨bases 0, n, n, 1, n, true⟩ : MemM ℂ MView)
        let bHost ← (do
          allocate (bases 1) (n * k) garbage
          deepCopyK sch ⟨bases 1, n, k, 1, n, true⟩ vB
          pure ⟨bases 1, n, k, 1, n, true⟩ : MemM ℂ MView)
        solveSymHost lib aHost bHost
        deepCopyK sch vA aHost
        deepCopyK sch vB bHost
        release (bases 0) (n * n)
        release (bases 1) (n * k) : MemM ℂ Unit) d.mem = (.ok (), m9) := by
      rw [ok_bind (p := (do
          allocate (bases 0) (n * n) garbage
          deepCopyK sch ⟨bases 0, n, n, 1, n, true⟩ vA
          pure ⟨bases 0, n, n, 1, n, true⟩ : MemM ℂ MView)) (by rw [ok_bind e1, ok_bind e2]; rfl),
        ok_bind (p := (do
          allocate (bases 1) (n * k) garbage
          deepCopyK sch ⟨bases 1, n, k, 1, n, true⟩ vB
          pure ⟨bases 1, n, k, 1, n, true⟩ : MemM ℂ MView)) (by rw [ok_bind e3, ok_bind e4]; rfl),
        ok_bind e5, ok_bind e6, ok_bind e7]
      exact e9
    rw [run]
  · simp only [Set.disjoint_union_right]
    exact ⟨sB f0, sB f1⟩
  · intro a ha
    have nA : a ∉ cells vA := fun h => ha (.inl h)
    have nB : a ∉ cells vB := fun h => ha (.inr h)
    show m9 a = d.mem a
    by_cases hb : a ∈ vecCells (bases 0) (n * n) ∨ a ∈ vecCells (bases 1) (n * k)
    · rw [l9 a hb]
      rcases hb with hb | hb
      · exact (f0 a hb.1 hb.2).symm
      · exact (f1 a hb.1 hb.2).symm
    · rw [k9 a (fun h => hb (.inl h)) fun h => hb (.inr h), o7 a nB, o6 a nA, o05 a hb]

end solve

/-! ### Examples -/

/-- a library whose calls succeed, with an eigensolver that keeps its contract -/
noncomputable def goodLib : GpuLib ℂ where
  ok _ := true
  lwork n := 2 * n
  zpotrf _ _ _ m := (m, 0)
  zpotrs := memPotrs
  zheevd := memHeevd refLapack

/-- the same eigensolver on the host -/
noncomputable def goodHost : HostLib ℂ where
  zpotrf _ _ _ m := (m, 0)
  zpotrs := memPotrs
  zheevd := memHeevd refLapack

/-- two by two, with eigenvalues 1 and -1 -/
def swapMat : Matrix (Fin 2) (Fin 2) ℂ := fun i j => if i = j then 0 else 1

/-- `swapMat` at 0, 30 cells with rubbish from 10 on -/
def swapMem : Mem ℂ := fun a =>
  if a < 4 then some (if a = 1 ∨ a = 2 then 1 else 0) else if 10 ≤ a ∧ a < 40 then some 7 else none

/-- an idle device with this memory -/
def swapDev : Dev ℂ := ⟨swapMem, [], 0, []⟩

theorem swapMem_holds : Holds swapMem ⟨0, 2, 2, 1, 2, true⟩ swapMat := by
  refine ⟨rfl, rfl, fun i j => ?_⟩
  fin_cases i <;> fin_cases j <;> simp [swapMem, swapMat]

theorem swapMat_herm : swapMat.IsHermitian := by
  ext i j
  fin_cases i <;> fin_cases j <;> simp [swapMat, conjTranspose]

theorem goodSolver : EigenSolver (memHeevd refLapack) := memHeevd_solver refLapack_ok

theorem goodConverges {n : ℕ} {A : Matrix (Fin n) (Fin n) ℂ} (h : A.IsHermitian) :
    Converges (memHeevd refLapack) A := fun v w m cv hA => by
  rw [memHeevd_info cv hA]
  exact refLapack_total A h

theorem swap_rubbish {v : MView} (h : ∀ a ∈ cells v, 10 ≤ a ∧ a < 40) : Accessible swapMem v :=
  fun a ha => ⟨7, by have := h a ha; simp only [swapMem]; rw [if_neg (by omega), if_pos this]⟩

theorem cells_two {b a : ℕ} (h : a ∈ cells ⟨b, 2, 2, 1, 2, true⟩) : b ≤ a ∧ a < b + 4 := by
  rw [cells_vec] at h
  exact h

/-- **C71** applies to `swapMat`: eigenvectors to address 10, eigenvalues to 20 -/
example (sch : Sched) : ∃ d', eighCuda goodLib sch ⟨10, 2, 2, 1, 2, true⟩ 20 ⟨0, 2, 2, 1, 2, true⟩ swapDev =
    (.ok (), d') ∧ HoldsEigen d'.mem ⟨10, 2, 2, 1, 2, true⟩ 20 swapMat := by
  obtain ⟨d', e, h, -⟩ := C71_eigh_cuda (lib := goodLib) (d := swapDev) (vU := ⟨10, 2, 2, 1, 2, true⟩)
    (vS := ⟨0, 2, 2, 1, 2, true⟩) (w := 20) sch (fun _ => rfl) goodSolver (goodConverges swapMat_herm)
    swapMat_herm ⟨rfl, le_rfl, by decide, rfl⟩ swapMem_holds rfl rfl rfl
    (swap_rubbish fun a ha => by have := cells_two ha; omega)
    (fun a ha => ⟨7, by
      have h1 := ha.1
      have h2 := ha.2
      simp only [swapDev, swapMem]
      rw [if_neg (by omega), if_pos (by omega)]⟩)
    (Set.disjoint_left.2 fun a h1 h2 => by have := cells_two h1; have := cells_two h2; omega)
    (Set.disjoint_left.2 fun a h1 h2 => by
      have := cells_two h1
      have := h2.1
      omega)
  exact ⟨d', e, h⟩

/-- the same with ROCm, host copies from address 100 on -/
example (sch : Sched) : ∃ d', eighRocm goodHost sch ⟨10, 2, 2, 1, 2, true⟩ 20 2 ⟨0, 2, 2, 1, 2, true⟩
    ![100, 200, 300] (fun _ => 5) swapDev = (.ok (), d') ∧
    HoldsEigen d'.mem ⟨10, 2, 2, 1, 2, true⟩ 20 swapMat ∧ d'.mem 200 = none := by
  have free : ∀ b k, 100 ≤ b → Free swapMem b k := fun b k hb a h1 _ => by
    simp only [swapMem]
    rw [if_neg (by omega), if_neg (by omega)]
  have dis : ∀ b k b' k', b + k ≤ b' → Disjoint (vecCells b k) (vecCells b' k') := fun b k b' k' h =>
    Set.disjoint_left.2 fun a h1 h2 => by
      have := h1.2
      have := h2.1
      omega
  obtain ⟨d', e, h, o⟩ := C71_eigh_rocm (lib := goodHost) (d := swapDev) (vU := ⟨10, 2, 2, 1, 2, true⟩)
    (vS := ⟨0, 2, 2, 1, 2, true⟩) (w := 20) (bases := ![100, 200, 300]) sch (fun _ => 5) goodSolver
    (goodConverges swapMat_herm)
    swapMat_herm (by decide) ⟨rfl, le_rfl, by decide, rfl⟩ swapMem_holds rfl rfl rfl
    (swap_rubbish fun a ha => by have := cells_two ha; omega)
    (fun a ha => ⟨7, by
      have h1 := ha.1
      have h2 := ha.2
      simp only [swapDev, swapMem]
      rw [if_neg (by omega), if_pos (by omega)]⟩)
    (Set.disjoint_left.2 fun a h1 h2 => by have := cells_two h1; have := cells_two h2; omega)
    (Set.disjoint_left.2 fun a h1 h2 => by
      have := cells_two h1
      have := h2.1
      omega)
    (free _ _ (by decide)) (free _ _ (by decide)) (free _ _ (by decide))
    (dis _ _ _ _ (by decide)) (dis _ _ _ _ (by decide)) (dis _ _ _ _ (by decide))
  refine ⟨d', e, h, (o 200 ?_).trans rfl⟩
  rintro (h | h)
  · have := cells_two h
    omega
  · have := h.2
    omega

/-- **C71**, products and sums: `swapMat` times itself, and the sum of two matrices -/
example (be : Backend) (sch : Sched) :
    (∃ C, GpuComputes (innerG be goodLib ⟨10, 2, 2, 1, 2, true⟩ ⟨0, 2, 2, 1, 2, true⟩ ⟨0, 2, 2, 1, 2, true⟩ 1 0)
      swapDev ⟨10, 2, 2, 1, 2, true⟩ ((1 : ℂ) • (swapMatᴴ * swapMat) + (0 : ℂ) • C)) ∧
    GpuComputes (addG be goodLib sch ⟨10, 2, 2, 1, 2, true⟩ ⟨0, 2, 2, 1, 2, true⟩ 3 0)
      swapDev ⟨10, 2, 2, 1, 2, true⟩ (fun i j => 3 * swapMat i j) := by
  have dis : Disjoint (cells ⟨0, 2, 2, 1, 2, true⟩) (cells ⟨10, 2, 2, 1, 2, true⟩) :=
    Set.disjoint_left.2 fun a h1 h2 => by have := cells_two h1; have := cells_two h2; omega
  have cm : ∀ b, ColMajor ⟨b, 2, 2, 1, 2, true⟩ := fun b => ⟨rfl, le_rfl, by simp, rfl⟩
  have h7 : Holds swapMem ⟨10, 2, 2, 1, 2, true⟩ (fun _ _ => 7 : Matrix (Fin 2) (Fin 2) ℂ) := by
    refine ⟨rfl, rfl, fun i j => ?_⟩
    fin_cases i <;> fin_cases j <;> simp [swapMem]
  exact ⟨⟨_, C71_inner be rfl 1 0 (cm _) (cm _) (cm _) swapMem_holds swapMem_holds h7 dis dis⟩,
    C71_add_overwrites be sch rfl 3 (cm _) (cm _) swapMem_holds rfl rfl h7.accessible dis (by decide)⟩

/-- twice the identity at 0, `swapMat` at 10 as right-hand side -/
def twoMem : Mem ℂ := fun a =>
  if a = 0 ∨ a = 3 then some 2 else if a = 1 ∨ a = 2 then some 0 else
  if a = 10 ∨ a = 13 then some 0 else if a = 11 ∨ a = 12 then some 1 else none

open scoped ComplexOrder in
/-- **C71**, linear systems: `2 X = swapMat`, with CUDA and with ROCm -/
example (sch : Sched) :
    (∃ d' X, solveSymCuda goodLib ⟨0, 2, 2, 1, 2, true⟩ ⟨10, 2, 2, 1, 2, true⟩ ⟨twoMem, [], 0, []⟩ =
      (.ok (), d') ∧ Holds d'.mem ⟨10, 2, 2, 1, 2, true⟩ X ∧ (2 : ℂ) • X = swapMat) ∧
    (∃ d' X, solveSymRocm goodHost sch ⟨0, 2, 2, 1, 2, true⟩ ⟨10, 2, 2, 1, 2, true⟩ ![100, 200] (fun _ => 5)
      ⟨twoMem, [], 0, []⟩ =
      (.ok (), d') ∧ Holds d'.mem ⟨10, 2, 2, 1, 2, true⟩ X ∧ (2 : ℂ) • X = swapMat) := by
  have dis : Disjoint (cells ⟨0, 2, 2, 1, 2, true⟩) (cells ⟨10, 2, 2, 1, 2, true⟩) :=
    Set.disjoint_left.2 fun a h1 h2 => by have := cells_two h1; have := cells_two h2; omega
  have cm : ∀ b, ColMajor ⟨b, 2, 2, 1, 2, true⟩ := fun b => ⟨rfl, le_rfl, by simp, rfl⟩
  have hA : Holds twoMem ⟨0, 2, 2, 1, 2, true⟩ ((2 : ℂ) • (1 : Matrix (Fin 2) (Fin 2) ℂ)) := by
    refine ⟨rfl, rfl, fun i j => ?_⟩
    fin_cases i <;> fin_cases j <;> simp [twoMem]
  have hB : Holds twoMem ⟨10, 2, 2, 1, 2, true⟩ swapMat := by
    refine ⟨rfl, rfl, fun i j => ?_⟩
    fin_cases i <;> fin_cases j <;> simp [twoMem, swapMat]
  have pA : ((2 : ℂ) • (1 : Matrix (Fin 2) (Fin 2) ℂ)).PosDef := Matrix.PosDef.one.smul (by norm_num)
  have free : ∀ b k, 100 ≤ b → Free twoMem b k := fun b k hb a h1 _ => by
    simp only [twoMem]
    rw [if_neg (by omega), if_neg (by omega), if_neg (by omega), if_neg (by omega)]
  constructor
  · obtain ⟨d', X, e, h, hX, -⟩ := C71_solve_cuda (lib := goodLib) (d := ⟨twoMem, [], 0, []⟩) (fun _ => rfl)
      memPotrs_solver pA (cm _) (cm _) hA hB dis
    exact ⟨d', X, e, h, by simpa using hX⟩
  · obtain ⟨d', X, e, h, hX, -⟩ := C71_solve_rocm (lib := goodHost) (d := ⟨twoMem, [], 0, []⟩)
      (bases := ![100, 200]) sch (fun _ => 5)
      memPotrs_solver pA (by decide) (cm _) (cm _) hA hB dis (free _ _ (by decide)) (free _ _ (by decide))
      (Set.disjoint_left.2 fun a h1 h2 => by
        have := h1.2
        have := h2.1
        simp at *
        omega)
    exact ⟨d', X, e, h, by simpa using hX⟩

/-! ## Failures -/

section failures
variable {α : Type} [Add α] [Mul α] [Zero α] [Star α] [DecidableEq α]

/-- **C72** fails: with CUDA no sequence of operations behaves differently when the solvers report
failure in `info` (no convergence, matrix not positive definite). -/
theorem C72_not_info (lib : GpuLib α) (sch : Sched) (ops : List (GpuOp α)) :
    cudaOps lib.silenced sch ops = cudaOps lib sch ops := by
  induction ops with
  | nil => rfl
  | cons o l ih => rw [cudaOps, cudaOps, cudaOp_silent, ih]

/-- **C72** fails: `eigh` with CUDA returns although the eigensolver has failed; what it leaves in place of
the eigenvectors is, for a solver that gave up at once, the matrix itself. -/
theorem C72_not_eigh {lib : GpuLib α} (hl : NoFailure lib) (sch : Sched)
    (hfail : ∀ n A lda w m, lib.zheevd n A lda w m = (m, 1)) {d : Dev α} {vU vS : MView} {n w : ℕ}
    {A : Matrix (Fin n) (Fin n) α} (cU : ColMajor vU) (hS : Holds d.mem vS A) (lS : vS.isLocal = true)
    (rU : vU.rows = n) (kU : vU.cols = n) (aU : Accessible d.mem vU)
    (dUS : Disjoint (cells vS) (cells vU)) :
    ∃ d', eighCuda lib sch vU w vS d = (.ok (), d') ∧ Holds d'.mem vU A ∧ d'.printed = d.printed := by
  obtain ⟨x, m1, e1, h1, o1⟩ := deepCopy_computes sch cU.inj (.inl dUS) hS rU kU aU
  obtain ⟨live, hlive⟩ : ∃ live, live = (d.live ++ ([⟨d.calls + 1, lib.lwork vU.rows * 16⟩,
      ⟨d.calls + 2, 4⟩] : List DevBlock)).filter fun b => b.addr ≠ d.calls + 1 := ⟨_, rfl⟩
  refine ⟨{ d with mem := m1, calls := d.calls + 6, live := live }, ?_, h1, rfl⟩
  unfold eighCuda cudaZheevd
  rw [if_pos (by simp [cU.single, lS])]
  simp only [SM.bind_apply, onMem, e1, cudaSolver_run hl, hfail, hlive]
  rfl

omit [Add α] [Mul α] [Zero α] [Star α] [DecidableEq α] in
/-- **C72** fails: `eigh` with ROCm does not depend on the return code of the eigensolver. -/
theorem C72_not_eigh_rocm (lib : HostLib α) (sch : Sched) (U : MView) (w n : ℕ) (S : MView)
    (bases : Fin 3 → ℕ) (garbage : ℕ → α) (code : ℤ) :
    eighRocm { lib with zheevd := fun n A lda w m => ((lib.zheevd n A lda w m).1, code) } sch U w n S bases
      garbage = eighRocm lib sch U w n S bases garbage := rfl

/-- **C72** fails: a matrix product whose library call fails returns normally and leaves the result as it
was. With CUDA there is not even a message. -/
theorem C72_not_product {lib : GpuLib α} {d : Dev α} (hf : lib.ok d.calls = false) (be : Backend)
    (C A B : MView) (alpha beta : α) (hl : A.isLocal ∧ B.isLocal ∧ C.isLocal)
    (h0 : A.s0 = 1 ∧ B.s0 = 1 ∧ C.s0 = 1) (sch : Sched) :
    ∀ p ∈ [innerG be lib C A B alpha beta, outerG be lib C A B alpha beta,
      transformG be lib C beta alpha A B, addG be lib sch C A alpha beta],
      (p d).1 = .ok () ∧ (p d).2.mem = d.mem ∧
        (p d).2.printed = match be with | .cuda => d.printed | .rocm => d.printed ++ [d.calls] := by
  intro p hp
  simp only [List.mem_cons, List.not_mem_nil, or_false] at hp
  rcases hp with rfl | rfl | rfl | rfl
  · simp only [innerG, hl, h0, Bool.and_self, if_true, ne_eq, not_true_eq_false, or_self, if_false, gemmGpu,
      SM.bind_apply, GpuLib.call, hf, true_or]
    cases be <;> simp [ignoreError, printError]
  · simp only [outerG, hl, h0, Bool.and_self, if_true, ne_eq, not_true_eq_false, or_self, if_false, gemmGpu,
      SM.bind_apply, GpuLib.call, hf, true_or]
    cases be <;> simp [ignoreError, printError]
  · simp only [transformG, hl, h0, Bool.and_self, if_true, ne_eq, not_true_eq_false, or_self, if_false,
      gemmGpu, SM.bind_apply, GpuLib.call, hf, true_or]
    cases be <;> simp [ignoreError, printError]
  · simp only [addG, hl, h0, Bool.and_self, if_true, ne_eq, not_true_eq_false, or_self, if_false,
      geamGpu, SM.bind_apply, GpuLib.call, hf, true_or]
    cases be <;> simp [ignoreError, printError]

omit [Add α] [Mul α] [Zero α] [Star α] [DecidableEq α] in
/-- **C72**, the part that holds with CUDA: if `eigh`, `cholesky` or `solve_sym` returns, then the size
query, the allocations and the solver calls all succeeded (they end the program otherwise, or there is
no defined behaviour); the other failures, of copying `info` and of releasing memory, have been printed. -/
theorem C72_solver_status_partial {lib : GpuLib α} {sch : Sched} {d d' : Dev α} {U S : MView} {w : ℕ}
    (h : eighCuda lib sch U w S d = (.ok (), d')) :
    (∀ i < 4, lib.ok (d.calls + i) = true) ∧ d'.calls = d.calls + 6 ∧
    ∀ i < 6, lib.ok (d.calls + i) = false → d.calls + i ∈ d'.printed := by
  unfold eighCuda at h
  split at h
  · obtain ⟨_, d1, e1, h⟩ := sm_bind_ok h
    obtain ⟨_, d2, e2, h⟩ := sm_bind_ok h
    obtain ⟨-, rfl⟩ := Prod.mk.inj h
    have hc : d1.calls = d.calls := by rw [← (Prod.mk.inj e1).2]
    obtain ⟨s0, s1, s2, s3, s4, -, -, -, s5⟩ := cudaSolver_ok e2
    rw [hc] at s0 s1 s2 s3 s4 s5
    refine ⟨fun i hi => ?_, s4, fun i hi hf => ?_⟩
    · interval_cases i <;> assumption
    · rw [s5]
      interval_cases i <;> simp_all
  · simp at h

omit [Add α] [Mul α] [Zero α] [Star α] [DecidableEq α] in
/-- **C72** for `cholesky` and `solve_sym` with CUDA -/
theorem C72_cholesky_status_partial {lib : GpuLib α} {d d' : Dev α} {A : MView}
    (h : choleskyCuda lib A d = (.ok (), d')) :
    (∀ i < 4, lib.ok (d.calls + i) = true) ∧ d'.calls = d.calls + 6 ∧
    ∀ i < 6, lib.ok (d.calls + i) = false → d.calls + i ∈ d'.printed := by
  unfold choleskyCuda at h
  split at h
  · obtain ⟨_, d2, e2, h⟩ := sm_bind_ok h
    obtain ⟨-, rfl⟩ := Prod.mk.inj h
    obtain ⟨s0, s1, s2, s3, s4, -, -, -, s5⟩ := cudaSolver_ok e2
    refine ⟨fun i hi => ?_, s4, fun i hi hf => ?_⟩
    · interval_cases i <;> assumption
    · rw [s5]
      interval_cases i <;> simp_all
  · simp at h

omit [Add α] [Mul α] [Zero α] [Star α] [DecidableEq α] in
theorem C72_solve_status_partial {lib : GpuLib α} {d d' : Dev α} {A RHS : MView}
    (h : solveSymCuda lib A RHS d = (.ok (), d')) :
    (∀ i < 4, lib.ok (d.calls + i) = true) ∧ lib.ok (d.calls + 6) = true ∧ lib.ok (d.calls + 7) = true ∧
    d'.calls = d.calls + 9 ∧ ∀ i < 9, lib.ok (d.calls + i) = false → d.calls + i ∈ d'.printed := by
  unfold solveSymCuda at h
  split at h
  · obtain ⟨_, d2, e2, h⟩ := sm_bind_ok h
    obtain ⟨s0, s1, s2, s3, s4, -, -, -, s5⟩ := cudaSolver_ok e2
    obtain ⟨t0, t1, t2, -, -, t3⟩ := cudaPotrs_ok h
    rw [s4] at t0 t1 t2 t3
    refine ⟨fun i hi => ?_, t0, t1, t2, fun i hi hf => ?_⟩
    · interval_cases i <;> assumption
    · rw [t3, s5]
      interval_cases i <;> simp_all
  · simp at h

omit [Add α] [Mul α] [Zero α] [Star α] [DecidableEq α] in
/-- **C72**: on the host `eigh` returns only if the eigensolver succeeded, and `cholesky` with ROCm only if
the factorisation succeeded. -/
theorem C72_checked_partial (lib : HostLib α) (glib : GpuLib α) (sch : Sched) (U S A : MView) (w : ℕ) :
    (∀ m m', eighHost lib sch U w S m = (.ok (), m') → ∃ m1, m' = (lib.zheevd U.cols U.data U.s1 w m1).1 ∧
      (lib.zheevd U.cols U.data U.s1 w m1).2 = 0) ∧
    (∀ d d', choleskyRocm glib A d = (.ok (), d') → (glib.zpotrf A.rows A.data A.s1 d.mem).2 = 0 ∧
      d'.mem = (glib.zpotrf A.rows A.data A.s1 d.mem).1) := by
  constructor
  · intro m m' h
    unfold eighHost at h
    split at h
    · obtain ⟨_, m1, e1, h⟩ := sm_bind_ok h
      refine ⟨m1, ?_⟩
      rw [SM.get_bind] at h
      simp only [SM.bind_apply, SM.modify_apply] at h
      split at h
      · simp at h
      · rename_i hn
        obtain ⟨-, rfl⟩ := Prod.mk.inj h
        exact ⟨rfl, by simpa using hn⟩
    · simp at h
  · intro d d' h
    unfold choleskyRocm at h
    split at h
    · rw [SM.get_bind] at h
      simp only [SM.bind_apply, onMem, SM.modify_apply] at h
      split at h
      · simp at h
      · rename_i hn
        obtain ⟨-, rfl⟩ := Prod.mk.inj h
        exact ⟨by simpa using hn, rfl⟩
    · simp at h

/-! ## Scratch memory -/

/-- **C73** fails: after any sequence of operations that returns, four bytes of device memory are lost for
each call of a solver, also if every library call succeeds. -/
theorem C73_not_released {lib : GpuLib α} (hl : NoFailure lib) {sch : Sched} {ops : List (GpuOp α)}
    {d d' : Dev α} (hs : Sane d) (h : cudaOps lib sch ops d = (.ok (), d')) :
    scratchBytes d' = scratchBytes d + 4 * solverCalls ops :=
  (cudaOps_leaks hl ops hs h).bytes

/-- **C73**, the part that holds: nothing else is lost. Every block that was in use is still in use, and
the new ones are one of four bytes for each call of a solver; the work spaces have all been released. -/
theorem C73_work_released_partial {lib : GpuLib α} (hl : NoFailure lib) {sch : Sched} {ops : List (GpuOp α)}
    {d d' : Dev α} (hs : Sane d) (h : cudaOps lib sch ops d = (.ok (), d')) :
    ∃ bs, d'.live = d.live ++ bs ∧ bs.length = solverCalls ops ∧ ∀ b ∈ bs, b.bytes = 4 := by
  obtain ⟨bs, e, hk, -, hb⟩ := cudaOps_leaks hl ops hs h
  exact ⟨bs, e, hk, fun b hm => (hb b hm).1⟩

/-- **C73**: operations that call no solver leave the scratch memory alone, also when calls fail -/
theorem C73_products_partial (lib : GpuLib α) (be : Backend) (sch : Sched) (C A B : MView) (alpha beta : α)
    (d : Dev α) :
    ∀ p ∈ [innerG be lib C A B alpha beta, outerG be lib C A B alpha beta,
      transformG be lib C beta alpha A B, addG be lib sch C A alpha beta], (p d).2.live = d.live := by
  intro p hp
  simp only [List.mem_cons, List.not_mem_nil, or_false] at hp
  rcases hp with rfl | rfl | rfl | rfl
  · unfold innerG; split
    · split
      · rfl
      · exact (gemmGpu_live ..).1
    · rfl
  · unfold outerG; split
    · split
      · rfl
      · exact (gemmGpu_live ..).1
    · rfl
  · unfold transformG; split
    · split
      · rfl
      · exact (gemmGpu_live ..).1
    · rfl
  · unfold addG; split
    · split
      · rfl
      · exact (geamGpu_live ..).1
    · rfl

end failures

/-- three factorisations on a device with an idle library: all return, 12 bytes are lost -/
example (sch : Sched) : ∃ d', cudaOps goodLib sch [.cholesky ⟨0, 2, 2, 1, 2, true⟩,
      .cholesky ⟨0, 2, 2, 1, 2, true⟩, .cholesky ⟨0, 2, 2, 1, 2, true⟩] swapDev = (.ok (), d') ∧
    scratchBytes d' = 12 := by
  have one : ∀ d : Dev ℂ, ∃ d', choleskyCuda goodLib ⟨0, 2, 2, 1, 2, true⟩ d = (.ok (), d') := fun d => by
    simp only [choleskyCuda, cudaPotrf, if_true, SM.bind_apply, cudaSolver_run (lib := goodLib) fun _ => rfl]
    exact ⟨_, rfl⟩
  obtain ⟨d1, e1⟩ := one swapDev
  obtain ⟨d2, e2⟩ := one d1
  obtain ⟨d3, e3⟩ := one d2
  have run : cudaOps goodLib sch [.cholesky ⟨0, 2, 2, 1, 2, true⟩,
      .cholesky ⟨0, 2, 2, 1, 2, true⟩, .cholesky ⟨0, 2, 2, 1, 2, true⟩] swapDev = (.ok (), d3) := by
    simp only [cudaOps, cudaOp, SM.bind_apply, e1, e2, e3]
    rfl
  refine ⟨d3, run, ?_⟩
  rw [C73_not_released (fun _ => rfl) (by simp [Sane, swapDev]) run]
  rfl

/-- a library whose eigensolver always gives up -/
noncomputable def gaveUp : GpuLib ℂ := { goodLib with zheevd := fun _ _ _ _ m => (m, 1) }

/-- **C72**: the eigensolver gives up on `swapMat`, which is then handed out as its own matrix of eigenvectors;
a product whose library call fails leaves the rubbish in the result. -/
example (be : Backend) (sch : Sched) :
    (∃ d', eighCuda gaveUp sch ⟨10, 2, 2, 1, 2, true⟩ 20 ⟨0, 2, 2, 1, 2, true⟩ swapDev = (.ok (), d') ∧
      Holds d'.mem ⟨10, 2, 2, 1, 2, true⟩ swapMat) ∧
    (innerG be { goodLib with ok := fun _ => false } ⟨10, 2, 2, 1, 2, true⟩ ⟨0, 2, 2, 1, 2, true⟩
      ⟨0, 2, 2, 1, 2, true⟩ 1 0 swapDev).2.mem 10 = some 7 := by
  constructor
  · obtain ⟨d', e, h, -⟩ := C72_not_eigh (lib := gaveUp) (fun _ => rfl) sch (fun _ _ _ _ _ => rfl)
      (d := swapDev) (vU := ⟨10, 2, 2, 1, 2, true⟩) (w := 20) ⟨rfl, le_rfl, by decide, rfl⟩ swapMem_holds rfl rfl
      rfl (swap_rubbish fun a ha => by have := cells_two ha; omega)
      (Set.disjoint_left.2 fun a h1 h2 => by have := cells_two h1; have := cells_two h2; omega)
    exact ⟨d', e, h⟩
  · rw [(C72_not_product (lib := { goodLib with ok := fun _ => false }) (d := swapDev) rfl be
      ⟨10, 2, 2, 1, 2, true⟩ ⟨0, 2, 2, 1, 2, true⟩ ⟨0, 2, 2, 1, 2, true⟩ 1 0 ⟨rfl, rfl, rfl⟩ ⟨rfl, rfl, rfl⟩ sch _
      (List.mem_cons_self ..)).2.1]
    simp [swapDev, swapMem]

/-- **C72**: `eigh` returns with the library above whose calls succeed, and not if the allocation fails -/
example (sch : Sched) :
    (∃ d', choleskyCuda goodLib ⟨0, 2, 2, 1, 2, true⟩ swapDev = (.ok (), d')) ∧
    ∀ d', choleskyCuda { goodLib with ok := fun i => i ≠ 1 } ⟨0, 2, 2, 1, 2, true⟩ swapDev ≠ (.ok (), d') := by
  constructor
  · simp only [choleskyCuda, cudaPotrf, if_true, SM.bind_apply, cudaSolver_run (lib := goodLib) fun _ => rfl]
    exact ⟨_, rfl⟩
  · intro d' h
    have := (C72_cholesky_status_partial h).1 1 (by decide)
    simp [swapDev] at this

end Nlcg
