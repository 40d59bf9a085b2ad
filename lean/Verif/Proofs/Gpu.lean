import Verif.Spec.Gpu
import Verif.Proofs.Memory

/-! Lemmas about matrix operations on the GPU. -/

namespace Nlcg
open Spec Matrix

section
variable {α : Type}

/-- what a solver call that returns has done: none of its calls failed, apart from the copy of `info`
and the release of the work space -/
theorem cudaSolver_ok {lib : GpuLib α} {n : ℕ} {run : Mem α → Mem α × ℤ} {d d' : Dev α} {x : Option ℤ}
    (h : cudaSolver lib n run d = (.ok x, d')) :
    lib.ok d.calls ∧ lib.ok (d.calls + 1) ∧ lib.ok (d.calls + 2) ∧ lib.ok (d.calls + 3) ∧
    d'.calls = d.calls + 6 ∧ d'.mem = (run d.mem).1 ∧
    (x = if lib.ok (d.calls + 4) then some (run d.mem).2 else none) ∧
    d'.live = (if lib.ok (d.calls + 5) then
        (d.live ++ ([⟨d.calls + 1, lib.lwork n * 16⟩, ⟨d.calls + 2, 4⟩] : List DevBlock)).filter fun b => b.addr ≠ d.calls + 1
      else d.live ++ [⟨d.calls + 1, lib.lwork n * 16⟩, ⟨d.calls + 2, 4⟩]) ∧
    d'.printed = d.printed ++ (if lib.ok (d.calls + 4) then [] else [d.calls + 4]) ++
      (if lib.ok (d.calls + 5) then [] else [d.calls + 5]) := by
  cases h0 : lib.ok d.calls <;> cases h1 : lib.ok (d.calls + 1) <;> cases h2 : lib.ok (d.calls + 2) <;>
    cases h3 : lib.ok (d.calls + 3) <;> cases h4 : lib.ok (d.calls + 4) <;>
    cases h5 : lib.ok (d.calls + 5) <;>
    simp [cudaSolver, cudaMalloc, cudaFree, copyInfo, checkStatus, usePtr, printError, GpuLib.call,
      SM.bind_apply, SM.modify, SM.get, h0, h1, h2, h3, h4, h5] at h <;>
    (obtain ⟨rfl, rfl⟩ := h; simp [h0, h1, h2, h3, h4, h5])

theorem cudaPotrs_ok {lib : GpuLib α} {n nrhs A lda B ldb : ℕ} {d d' : Dev α} {x : Unit}
    (h : cudaPotrs lib n nrhs A lda B ldb d = (.ok x, d')) :
    lib.ok d.calls ∧ lib.ok (d.calls + 1) ∧
    d'.calls = d.calls + 3 ∧ d'.mem = (lib.zpotrs n nrhs A lda B ldb d.mem).1 ∧
    d'.live = d.live ++ [⟨d.calls, 4⟩] ∧
    d'.printed = d.printed ++ (if lib.ok (d.calls + 2) then [] else [d.calls + 2]) := by
  cases h0 : lib.ok d.calls <;> cases h1 : lib.ok (d.calls + 1) <;> cases h2 : lib.ok (d.calls + 2) <;>
    simp [cudaPotrs, cudaMalloc, copyInfo, checkStatus, usePtr, printError, GpuLib.call,
      SM.bind_apply, SM.modify, SM.get, h0, h1, h2] at h <;>
    (subst h; simp [h1, h2])

/-- a solver whose calls all succeed -/
theorem cudaSolver_run {lib : GpuLib α} (hl : NoFailure lib) (n : ℕ) (run : Mem α → Mem α × ℤ) (d : Dev α) :
    cudaSolver lib n run d = (.ok (some (run d.mem).2), { d with
      mem := (run d.mem).1, calls := d.calls + 6,
      live := (d.live ++ ([⟨d.calls + 1, lib.lwork n * 16⟩, ⟨d.calls + 2, 4⟩] : List DevBlock)).filter
        fun b => b.addr ≠ d.calls + 1 }) := by
  have h : ∀ i, lib.ok i = true := hl
  simp [cudaSolver, cudaMalloc, cudaFree, copyInfo, checkStatus, usePtr, GpuLib.call,
      SM.bind_apply, SM.modify, SM.get, h]

theorem cudaPotrs_run {lib : GpuLib α} (hl : NoFailure lib) (n nrhs A lda B ldb : ℕ) (d : Dev α) :
    cudaPotrs lib n nrhs A lda B ldb d = (.ok (), { d with
      mem := (lib.zpotrs n nrhs A lda B ldb d.mem).1, calls := d.calls + 3,
      live := d.live ++ [⟨d.calls, 4⟩] }) := by
  have h : ∀ i, lib.ok i = true := hl
  simp [cudaPotrs, cudaMalloc, copyInfo, checkStatus, usePtr, GpuLib.call,
      SM.bind_apply, SM.modify, SM.get, h]

/-- releasing the work space leaves everything else -/
theorem filter_fresh {l : List DevBlock} {c b1 b2 : ℕ} (h : ∀ b ∈ l, b.addr < c) :
    (l ++ ([⟨c + 1, b1⟩, ⟨c + 2, b2⟩] : List DevBlock)).filter (fun b => b.addr ≠ c + 1) =
      l ++ [⟨c + 2, b2⟩] := by
  rw [List.filter_append, List.filter_eq_self.2]
  · simp
  · intro b hb
    have := h b hb
    simp
    omega

theorem onMem_bind {β γ : Type} {p : MemM α β} {f : β → GpuM α γ} {d d' : Dev α} {y : γ}
    (h : (onMem p >>= f) d = (.ok y, d')) :
    ∃ x, (p d.mem).1 = .ok x ∧ f x { d with mem := (p d.mem).2 } = (.ok y, d') := by
  rw [SM.bind_apply] at h
  simp only [onMem] at h
  cases e : (p d.mem).1 <;> rw [e] at h <;> simp_all

/-- `deep_copy` of a matrix -/
theorem deepCopy_computes [Zero α] (sch : Sched) {dst src : MView} {m : Mem α} {r c : ℕ}
    {S : Matrix (Fin r) (Fin c) α} (hd : Distinct dst) (hc : Compatible dst src) (hS : Holds m src S)
    (hr : dst.rows = r) (hcl : dst.cols = c) (ha : Accessible m dst) :
    Computes (deepCopyK sch dst src) m dst S := by
  subst hr hcl
  rw [deepCopyK, if_neg (by rw [hS.1, hS.2.1]; simp), hS.1, hS.2.1]
  refine Computes.congr (elementwise (m := m) (src := src) sch hd hc hS.1 hS.2.1
    (fun p => ext S p.1 p.2) _ ?_) (by simp)
  intro p h1 h2 m' hs e1 e2
  obtain ⟨x, hx⟩ := ha _ (mem_cells h1 h2)
  rw [addr_eq, addr_eq, load_bind (e1.trans (hS.ext_at (hS.1.symm ▸ h1) (hS.2.1.symm ▸ h2))),
    store_ok (e2.trans hx)]

/-- copy of a vector -/
theorem copyVec_ok [Zero α] {dst src n : ℕ} {m : Mem α} {x : Fin n → α} (hx : HoldsVec m src x)
    (ha : ∀ a ∈ vecCells dst n, ∃ y, m a = some y) (hd : Disjoint (vecCells dst n) (vecCells src n)) :
    ∃ m', copyVec dst src n m = (.ok (), m') ∧ HoldsVec m' dst x ∧ SameOutside (vecCells dst n) m m' := by
  obtain ⟨m', e, h1, h2⟩ := forEach_writes (fun k => dst + k) (fun k => if h : k < n then x ⟨k, h⟩ else 0)
    (fun k => do let x ← load (src + k); store (dst + k) x) m (List.range n) m List.nodup_range
    (by intro a _ b _ h; simpa using h) (by
      intro k hk m1 hm
      have hk := List.mem_range.1 hk
      have e1 : m1 (src + k) = some (x ⟨k, hk⟩) := by
        rw [hm _ ?_]
        · exact hx ⟨k, hk⟩
        · intro y hy _ e
          have hy := List.mem_range.1 hy
          exact Set.disjoint_left.1 hd (show src + k ∈ vecCells dst n from ⟨by omega, by omega⟩)
            ⟨by omega, by omega⟩
      obtain ⟨y, hy⟩ := ha (dst + k) ⟨by omega, by omega⟩
      have e2 : m1 (dst + k) = some y := by
        rw [hm _ ?_, hy]
        intro z _ hz e
        exact hz (by omega)
      show (load (src + k) >>= fun x => store (dst + k) x) m1 = _
      rw [load_bind e1, store_ok e2, dif_pos hk]) (fun _ => rfl)
  refine ⟨m', e, fun i => ?_, fun a ha => h2 a ?_⟩
  · rw [h1 i (List.mem_range.2 i.2), dif_pos i.2]
  · intro k hk e
    have hk := List.mem_range.1 hk
    exact ha ⟨by omega, by omega⟩

/-! ## What stays -/

theorem Spec.Holds.frame {r c : ℕ} {m m' : Mem α} {v : MView} {A : Matrix (Fin r) (Fin c) α} {S : Set ℕ}
    (h : Holds m v A) (hs : SameOutside S m m') (hd : Disjoint (cells v) S) : Holds m' v A := by
  refine ⟨h.1, h.2.1, fun i j => ?_⟩
  rw [hs _ (Set.disjoint_left.1 hd ⟨i, j, h.1 ▸ i.2, h.2.1 ▸ j.2, rfl⟩)]
  exact h.2.2 i j

theorem Spec.HoldsVec.frame {n : ℕ} {m m' : Mem α} {w : ℕ} {x : Fin n → α} {S : Set ℕ}
    (h : HoldsVec m w x) (hs : SameOutside S m m') (hd : Disjoint (vecCells w n) S) : HoldsVec m' w x := by
  intro i
  rw [hs _ (Set.disjoint_left.1 hd ⟨by omega, by omega⟩)]
  exact h i

theorem Spec.SameOutside.trans {S T : Set ℕ} {m m' m'' : Mem α} (h : SameOutside S m m')
    (h' : SameOutside T m' m'') : SameOutside (S ∪ T) m m'' := by
  intro a ha
  rw [h' a fun e => ha (.inr e), h a fun e => ha (.inl e)]

theorem Spec.SameOutside.mono {S T : Set ℕ} {m m' : Mem α} (h : SameOutside S m m') (hs : S ⊆ T) :
    SameOutside T m m' := fun a ha => h a fun e => ha (hs e)

theorem Spec.HoldsVec.exists {n w : ℕ} {m : Mem α} (h : ∀ a ∈ vecCells w n, ∃ x, m a = some x) :
    ∃ x : Fin n → α, HoldsVec m w x := by
  choose f hf using fun i : Fin n => h (w + i) ⟨by omega, by omega⟩
  exact ⟨f, hf⟩

theorem allocate_outside (base n : ℕ) (g : ℕ → α) (m : Mem α) :
    SameOutside (vecCells base n) m (fun a => if base ≤ a ∧ a < base + n then some (g a) else m a) :=
  fun a ha => if_neg ha

theorem cells_vec {base r c : ℕ} {l : Bool} : cells ⟨base, r, c, 1, r, l⟩ = vecCells base (r * c) :=
  Set.ext fun _ => ⟨fun h => cells_contiguous h, fun h => mem_cells_contiguous h.1 h.2⟩

/-- memory that is in use is not handed out -/
theorem Spec.Free.disjoint {m : Mem α} {base n : ℕ} {S : Set ℕ} (h : Free m base n)
    (hS : ∀ a ∈ S, ∃ x, m a = some x) : Disjoint S (vecCells base n) := by
  rw [Set.disjoint_left]
  intro a ha hb
  obtain ⟨x, hx⟩ := hS a ha
  exact h.not_some hx hb

/-! ## Products -/

variable [Add α] [Mul α] [Zero α] [Star α] [DecidableEq α]

omit [Add α] [Mul α] [Zero α] [Star α] [DecidableEq α] in
theorem onMem_computes {β : Type} {p : MemM α β} {d : Dev α} {v : MView} {r c : ℕ}
    {A : Matrix (Fin r) (Fin c) α} (h : Computes p d.mem v A) : GpuComputes (onMem p) d v A := by
  obtain ⟨x, m', e, h1, h2⟩ := h
  exact ⟨x, { d with mem := m' }, by simp [onMem, e], h1, h2, rfl⟩

/-- a product whose call succeeds does what the host does -/
theorem gemmGpu_computes {b : Backend} {lib : GpuLib α} {ta tb : Trans} {m n k A lda B ldb C ldc : ℕ}
    {alpha beta : α} {d : Dev α} {v : MView} {r c : ℕ} {R : Matrix (Fin r) (Fin c) α}
    (hok : lib.ok d.calls = true) (h : Computes (gemm ta tb m n k alpha A lda B ldb beta C ldc) d.mem v R) :
    GpuComputes (gemmGpu b lib ta tb m n k alpha A lda B ldb beta C ldc) d v R := by
  cases ta <;> cases tb <;> {
    obtain ⟨x, m', e, h1, h2⟩ := h
    have e' := e
    rw [gemm] at e'
    split at e'
    · simp at e'
    · rename_i hv
      refine ⟨x, { d with mem := m', calls := d.calls + 1 }, ?_, h1, h2, rfl⟩
      simp only [gemmGpu, SM.bind_apply, GpuLib.call, hok]
      rw [if_neg (by simpa using hv)]
      simp [onMem, e] }

/-! ## Scratch memory -/

omit [Add α] [Mul α] [Zero α] [Star α] [DecidableEq α] in
theorem ite_live (c : Prop) [Decidable c] (b : Backend) (p : MemM α Unit) (d : Dev α) :
    ((if c then ignoreError b else onMem p) d).2.live = d.live ∧
    ((if c then ignoreError b else onMem p) d).2.calls = d.calls := by
  split
  · cases b <;> exact ⟨rfl, rfl⟩
  · exact ⟨rfl, rfl⟩

theorem gemmGpu_live (b : Backend) (lib : GpuLib α) (ta tb : Trans) (m n k : ℕ) (alpha : α) (A lda B ldb : ℕ)
    (beta : α) (C ldc : ℕ) (d : Dev α) :
    (gemmGpu b lib ta tb m n k alpha A lda B ldb beta C ldc d).2.live = d.live ∧
    (gemmGpu b lib ta tb m n k alpha A lda B ldb beta C ldc d).2.calls = d.calls + 1 := by
  simp only [gemmGpu, SM.bind_apply, GpuLib.call]
  exact ite_live _ _ _ _

omit [Star α] in
theorem geamGpu_live (b : Backend) (lib : GpuLib α) (sch : Sched) (m n : ℕ) (alpha : α) (A lda : ℕ) (beta : α)
    (B ldb C ldc : ℕ) (d : Dev α) :
    (geamGpu b lib sch m n alpha A lda beta B ldb C ldc d).2.live = d.live ∧
    (geamGpu b lib sch m n alpha A lda beta B ldb C ldc d).2.calls = d.calls + 1 := by
  simp only [geamGpu, SM.bind_apply, GpuLib.call]
  exact ite_live _ _ _ _

/-- what an operation adds to the blocks in use -/
def Leaks (d d' : Dev α) (k : ℕ) : Prop :=
  ∃ bs : List DevBlock, d'.live = d.live ++ bs ∧ bs.length = k ∧ d.calls ≤ d'.calls ∧
    ∀ b ∈ bs, b.bytes = 4 ∧ b.addr < d'.calls

omit [Add α] [Mul α] [Zero α] [Star α] [DecidableEq α] in
theorem Leaks.trans {d d' d'' : Dev α} {k l : ℕ} (h : Leaks d d' k) (h' : Leaks d' d'' l) :
    Leaks d d'' (k + l) := by
  obtain ⟨bs, e, hk, hc, hb⟩ := h
  obtain ⟨bs', e', hk', hc', hb'⟩ := h'
  refine ⟨bs ++ bs', by rw [e', e, List.append_assoc], by simp [hk, hk'], hc.trans hc', fun b hm => ?_⟩
  rcases List.mem_append.1 hm with hm | hm
  · exact ⟨(hb b hm).1, (hb b hm).2.trans_le hc'⟩
  · exact hb' b hm

omit [Add α] [Mul α] [Zero α] [Star α] [DecidableEq α] in
theorem Leaks.sane {d d' : Dev α} {k : ℕ} (h : Leaks d d' k) (hs : Sane d) : Sane d' := by
  obtain ⟨bs, e, -, hc, hb⟩ := h
  intro b hm
  rw [e] at hm
  rcases List.mem_append.1 hm with hm | hm
  · exact (hs b hm).trans_le hc
  · exact (hb b hm).2

omit [Add α] [Mul α] [Zero α] [Star α] [DecidableEq α] in
theorem Leaks.bytes {d d' : Dev α} {k : ℕ} (h : Leaks d d' k) :
    scratchBytes d' = scratchBytes d + 4 * k := by
  obtain ⟨bs, e, hk, -, hb⟩ := h
  have : ∀ bs : List DevBlock, (∀ b ∈ bs, b.bytes = 4) → (bs.map DevBlock.bytes).sum = 4 * bs.length := by
    intro bs
    induction bs with
    | nil => simp
    | cons b bs ih =>
      intro hb
      simp only [List.map_cons, List.sum_cons, List.length_cons]
      rw [hb b (by simp), ih fun c hc => hb c (by simp [hc])]
      omega
  rw [scratchBytes, e, List.map_append, List.sum_append, this bs fun b hm => (hb b hm).1, hk, scratchBytes]

omit [Add α] [Mul α] [Zero α] [Star α] [DecidableEq α] in
theorem cudaSolver_leaks {lib : GpuLib α} (hl : NoFailure lib) {n : ℕ} {run : Mem α → Mem α × ℤ}
    {d d' : Dev α} {x : Option ℤ} (hs : Sane d) (h : cudaSolver lib n run d = (.ok x, d')) :
    Leaks d d' 1 := by
  rw [cudaSolver_run hl, filter_fresh hs] at h
  obtain ⟨-, rfl⟩ := Prod.mk.inj h
  exact ⟨[⟨d.calls + 2, 4⟩], rfl, rfl, by simp, by simp⟩

omit [Add α] [Mul α] [Zero α] [Star α] [DecidableEq α] in
theorem cudaPotrs_leaks {lib : GpuLib α} (hl : NoFailure lib) {n nrhs A lda B ldb : ℕ}
    {d d' : Dev α} {x : Unit} (h : cudaPotrs lib n nrhs A lda B ldb d = (.ok x, d')) :
    Leaks d d' 1 := by
  rw [cudaPotrs_run hl] at h
  obtain ⟨-, rfl⟩ := Prod.mk.inj h
  exact ⟨[⟨d.calls, 4⟩], rfl, rfl, by simp, by simp⟩

omit [Add α] [Mul α] [Zero α] [Star α] [DecidableEq α] in
theorem sm_bind_ok {σ β γ : Type} {p : SM σ β} {f : β → SM σ γ} {s s' : σ} {y : γ}
    (h : (p >>= f) s = (.ok y, s')) : ∃ x s1, p s = (.ok x, s1) ∧ f x s1 = (.ok y, s') := by
  rw [SM.bind_apply] at h
  match hp : p s with
  | (.ok b, s1) => rw [hp] at h; exact ⟨b, s1, rfl, h⟩
  | (.throw e, s1) => rw [hp] at h; simp at h
  | (.ub, s1) => rw [hp] at h; simp at h
  | (.abort, s1) => rw [hp] at h; simp at h

theorem cudaOp_leaks {lib : GpuLib α} (hl : NoFailure lib) {sch : Sched} {o : GpuOp α} {d d' : Dev α}
    {x : Unit} (hs : Sane d) (h : cudaOp lib sch o d = (.ok x, d')) : Leaks d d' (solverCalls [o]) := by
  have none : ∀ {p : GpuM α Unit}, p d = (.ok x, d') → ((p d).2.live = d.live ∧ (p d).2.calls = d.calls + 1) →
      Leaks d d' 0 := by
    intro p hp ⟨h1, h2⟩
    rw [hp] at h1 h2
    simp only at h1 h2
    exact ⟨[], by simp [h1], rfl, by omega, by simp⟩
  cases o with
  | eigh U w S =>
    simp only [cudaOp, eighCuda] at h
    split at h
    · obtain ⟨_, d1, e1, h⟩ := sm_bind_ok h
      obtain ⟨_, d2, e2, h⟩ := sm_bind_ok h
      obtain ⟨-, rfl⟩ := Prod.mk.inj h
      have hd : d1 = { d with mem := d1.mem } := (Prod.mk.inj e1).2.symm ▸ rfl
      have l1 : Leaks d d1 0 := by rw [hd]; exact ⟨[], by simp, rfl, le_rfl, by simp⟩
      simpa [solverCalls] using l1.trans (cudaSolver_leaks hl (l1.sane hs) e2)
    · simp at h
  | cholesky A =>
    simp only [cudaOp, choleskyCuda] at h
    split at h
    · obtain ⟨_, d1, e1, h⟩ := sm_bind_ok h
      obtain ⟨-, rfl⟩ := Prod.mk.inj h
      exact cudaSolver_leaks hl hs e1
    · simp at h
  | solveSym A RHS =>
    simp only [cudaOp, solveSymCuda] at h
    split at h
    · obtain ⟨_, d1, e1, h⟩ := sm_bind_ok h
      exact (cudaSolver_leaks hl hs e1).trans (cudaPotrs_leaks hl h)
    · simp at h
  | inner C A B alpha beta =>
    simp only [cudaOp, innerG] at h
    split at h
    · split at h
      · simp at h
      · exact none h (gemmGpu_live ..)
    · simp at h
  | outer C A B alpha beta =>
    simp only [cudaOp, outerG] at h
    split at h
    · split at h
      · simp at h
      · exact none h (gemmGpu_live ..)
    · simp at h
  | transform C beta alpha A B =>
    simp only [cudaOp, transformG] at h
    split at h
    · split at h
      · simp at h
      · exact none h (gemmGpu_live ..)
    · simp at h
  | add C A alpha beta =>
    simp only [cudaOp, addG] at h
    split at h
    · split at h
      · simp at h
      · exact none h (geamGpu_live ..)
    · simp at h

omit [Add α] [Mul α] [Zero α] [Star α] [DecidableEq α] in
theorem solverCalls_cons (o : GpuOp α) (l : List (GpuOp α)) :
    solverCalls (o :: l) = solverCalls [o] + solverCalls l := by
  cases o <;> simp [solverCalls]

theorem cudaOps_leaks {lib : GpuLib α} (hl : NoFailure lib) {sch : Sched} :
    ∀ (ops : List (GpuOp α)) {d d' : Dev α} {x : Unit}, Sane d → cudaOps lib sch ops d = (.ok x, d') →
      Leaks d d' (solverCalls ops)
  | [], d, d', x, _, h => by
    obtain ⟨-, rfl⟩ := Prod.mk.inj h
    exact ⟨[], by simp, rfl, le_rfl, by simp⟩
  | o :: l, d, d', x, hs, h => by
    obtain ⟨_, d1, e1, h⟩ := sm_bind_ok h
    have l1 := cudaOp_leaks hl hs e1
    rw [solverCalls_cons]
    exact l1.trans (cudaOps_leaks hl l (l1.sane hs) h)

/-! ## Return codes -/

/-- the same library, with every return code of a solver replaced by success -/
def GpuLib.silenced (lib : GpuLib α) : GpuLib α :=
  { lib with
    zpotrf := fun n A lda m => ((lib.zpotrf n A lda m).1, 0)
    zpotrs := fun n nrhs A lda B ldb m => ((lib.zpotrs n nrhs A lda B ldb m).1, 0)
    zheevd := fun n A lda w m => ((lib.zheevd n A lda w m).1, 0) }

omit [Add α] [Mul α] [Zero α] [Star α] [DecidableEq α] in
theorem cudaSolver_silent (lib : GpuLib α) (n : ℕ) (run : Mem α → Mem α × ℤ) :
    (cudaSolver lib n (fun m => ((run m).1, 0)) >>= fun _ => (pure () : GpuM α Unit)) =
      (cudaSolver lib n run >>= fun _ => pure ()) := by
  funext d
  cases h0 : lib.ok d.calls
  · simp [cudaSolver, GpuLib.call, SM.bind_apply, h0]
  cases h1 : lib.ok (d.calls + 1) <;> cases h2 : lib.ok (d.calls + 2)
  · simp [cudaSolver, cudaMalloc, usePtr, printError, GpuLib.call, SM.bind_apply, SM.modify, SM.get, h0, h1, h2]
  · simp [cudaSolver, cudaMalloc, usePtr, printError, GpuLib.call, SM.bind_apply, SM.modify, SM.get, h0, h1, h2]
  · simp [cudaSolver, cudaMalloc, usePtr, printError, GpuLib.call, SM.bind_apply, SM.modify, SM.get, h0, h1, h2]
  cases h3 : lib.ok (d.calls + 3) <;> cases h4 : lib.ok (d.calls + 4) <;>
    cases h5 : lib.ok (d.calls + 5) <;>
    simp [cudaSolver, cudaMalloc, cudaFree, copyInfo, checkStatus, usePtr, printError, GpuLib.call,
      SM.bind_apply, SM.modify, SM.get, h0, h1, h2, h3, h4, h5]

omit [Add α] [Mul α] [Zero α] [Star α] [DecidableEq α] in
theorem sm_drop {σ β γ : Type} (p : SM σ β) (f : SM σ γ) :
    ((p >>= fun _ => (pure () : SM σ Unit)) >>= fun _ => f) = (p >>= fun _ => f) := by
  funext s
  simp only [SM.bind_apply]
  rcases p s with ⟨_ | _ | _ | _, _⟩ <;> rfl

omit [Add α] [Mul α] [Zero α] [Star α] [DecidableEq α] in
theorem cudaPotrs_silent (lib : GpuLib α) (n nrhs A lda B ldb : ℕ) :
    cudaPotrs lib.silenced n nrhs A lda B ldb = cudaPotrs lib n nrhs A lda B ldb := by
  funext d
  cases h0 : lib.ok d.calls <;> cases h1 : lib.ok (d.calls + 1) <;> cases h2 : lib.ok (d.calls + 2) <;>
    simp [cudaPotrs, cudaMalloc, copyInfo, checkStatus, usePtr, printError, GpuLib.call, GpuLib.silenced,
      SM.bind_apply, SM.modify, SM.get, h0, h1, h2]

theorem cudaOp_silent (lib : GpuLib α) (sch : Sched) (o : GpuOp α) :
    cudaOp lib.silenced sch o = cudaOp lib sch o := by
  cases o with
  | eigh U w S =>
    simp only [cudaOp, eighCuda]
    rw [← show (cudaZheevd lib.silenced U.rows U.data U.s1 w >>= fun _ => (pure () : GpuM α Unit)) =
      (cudaZheevd lib U.rows U.data U.s1 w >>= fun _ => pure ()) from cudaSolver_silent lib _ _]
  | cholesky A =>
    simp only [cudaOp, choleskyCuda]
    rw [← show (cudaPotrf lib.silenced A.rows A.data A.s1 >>= fun _ => (pure () : GpuM α Unit)) =
      (cudaPotrf lib A.rows A.data A.s1 >>= fun _ => pure ()) from cudaSolver_silent lib _ _]
  | solveSym A RHS =>
    simp only [cudaOp, solveSymCuda, cudaPotrs_silent]
    have h := cudaSolver_silent lib A.rows (lib.zpotrf A.rows A.data A.s1)
    have := congrArg (fun p : GpuM α Unit => p >>= fun _ =>
      cudaPotrs lib A.rows RHS.cols A.data A.s1 RHS.data RHS.s1) h
    simp only [sm_drop] at this
    split
    · exact this
    · rfl
  | inner C A B alpha beta => rfl
  | outer C A B alpha beta => rfl
  | transform C beta alpha A B => rfl
  | add C A alpha beta => rfl

end

end Nlcg
