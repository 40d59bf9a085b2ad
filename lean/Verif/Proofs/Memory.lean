import Verif.Spec.Memory
import Mathlib.Algebra.BigOperators.Fin
import Mathlib.Data.Complex.Basic
import Mathlib.Tactic.Ring

/-! Helper lemmas on memory, loops and column-major storage. -/

namespace Nlcg
open Spec

variable {α : Type}

theorem load_ok {m : Mem α} {a : ℕ} {v : α} (h : m a = some v) : load a m = (.ok v, m) := by
  simp [load, h]

theorem store_ok {m : Mem α} {a : ℕ} {u v : α} (h : m a = some u) :
    store a v m = (.ok (), fun x => if x = a then some v else m x) := by
  simp [store, h]

theorem load_bind {β : Type} {m : Mem α} {a : ℕ} {v : α} (h : m a = some v) (f : α → MemM α β) :
    (load a >>= f) m = f v m := by
  rw [SM.bind_apply, load_ok h]

theorem ok_bind {β γ : Type} {p : MemM α β} {m m' : Mem α} {x : β} (h : p m = (.ok x, m'))
    (f : β → MemM α γ) : (p >>= f) m = f x m' := by
  rw [SM.bind_apply, h]

/-- A loop whose iterations write to different addresses, each a value that does not depend on what
the other iterations wrote. -/
theorem forEach_writes {ι : Type} (w : ι → ℕ) (val : ι → α) (body : ι → MemM α Unit) (m0 : Mem α) :
    ∀ (l : List ι) (m : Mem α), l.Nodup →
    (∀ x ∈ l, ∀ y ∈ l, w x = w y → x = y) →
    (∀ x ∈ l, ∀ m : Mem α, (∀ a, (∀ y ∈ l, y ≠ x → a ≠ w y) → m a = m0 a) →
      body x m = (.ok (), fun a => if a = w x then some (val x) else m a)) →
    (∀ a, m a = m0 a) →
    ∃ m', forEach l body m = (.ok (), m') ∧ (∀ x ∈ l, m' (w x) = some (val x)) ∧
      ∀ a, (∀ x ∈ l, a ≠ w x) → m' a = m0 a := by
  -- generalise over the part already done
  suffices H : ∀ (done l : List ι) (m : Mem α), (done ++ l).Nodup →
      (∀ x ∈ done ++ l, ∀ y ∈ done ++ l, w x = w y → x = y) →
      (∀ x ∈ done ++ l, ∀ m : Mem α, (∀ a, (∀ y ∈ done ++ l, y ≠ x → a ≠ w y) → m a = m0 a) →
        body x m = (.ok (), fun a => if a = w x then some (val x) else m a)) →
      (∀ x ∈ done, m (w x) = some (val x)) → (∀ a, (∀ x ∈ done, a ≠ w x) → m a = m0 a) →
      ∃ m', forEach l body m = (.ok (), m') ∧ (∀ x ∈ done ++ l, m' (w x) = some (val x)) ∧
        ∀ a, (∀ x ∈ done ++ l, a ≠ w x) → m' a = m0 a by
    intro l m hn hi hb hm
    simpa using H [] l m (by simpa using hn) (by simpa using hi) (by simpa using hb) (by simp)
      (by simpa using hm)
  intro done l
  induction l generalizing done with
  | nil =>
    intro m _ _ _ h1 h2
    exact ⟨m, rfl, by simpa using h1, by simpa using h2⟩
  | cons x l ih =>
    intro m hn hi hb h1 h2
    have hx : x ∈ done ++ x :: l := by simp
    have hxd : ∀ y ∈ done, y ≠ x := by
      intro y hy e
      subst e
      rw [List.nodup_append] at hn
      exact hn.2.2 _ hy _ (by simp) rfl
    have hbx := hb x hx m (fun a ha => h2 a (fun y hy => ha y (by simp [hy]) (hxd y hy)))
    obtain ⟨m', e, g1, g2⟩ := ih (done ++ [x]) (fun a => if a = w x then some (val x) else m a)
      (by simpa using hn) (by simpa using hi) (by simpa using hb)
      (by
        intro y hy
        rcases List.mem_append.1 hy with hy | hy
        · have : w y ≠ w x := fun e => hxd y hy (hi y (by simp [hy]) x hx e)
          simpa [this] using h1 y hy
        · obtain rfl := List.mem_singleton.1 hy
          simp)
      (by
        intro a ha
        have hax : a ≠ w x := ha x (by simp)
        simpa [hax] using h2 a (fun y hy => ha y (by simp [hy])))
    refine ⟨m', ?_, by simpa using g1, by simpa using g2⟩
    rw [forEach, ok_bind hbx]
    exact e

theorem mem_indexPairs {m n : ℕ} {p : ℕ × ℕ} : p ∈ indexPairs m n ↔ p.1 < m ∧ p.2 < n := by
  obtain ⟨i, j⟩ := p
  simp only [indexPairs, List.mem_flatMap, List.mem_range, List.mem_map, Prod.mk.injEq]
  constructor
  · rintro ⟨_, hj, _, hi, rfl, rfl⟩
    exact ⟨hi, hj⟩
  · rintro ⟨hi, hj⟩
    exact ⟨j, hj, i, hi, rfl, rfl⟩

theorem nodup_indexPairs (m n : ℕ) : (indexPairs m n).Nodup := by
  unfold indexPairs
  rw [List.nodup_flatMap]
  constructor
  · intro j _
    exact List.Nodup.map (fun a b h => by simpa using h) List.nodup_range
  · refine List.Pairwise.imp ?_ (List.nodup_range (n := n))
    intro a b hab
    simp only [Function.onFun, List.disjoint_left, List.mem_map, not_exists, not_and]
    rintro _ ⟨i, _, rfl⟩ i' _ h
    exact hab (by simpa using (Prod.mk.inj h).2.symm)

theorem Sched.mem_order (s : Sched) {ι : Type} {l : List ι} {x : ι} : x ∈ s.order l ↔ x ∈ l :=
  (s.perm l).mem_iff

theorem Sched.nodup_order (s : Sched) {ι : Type} {l : List ι} : (s.order l).Nodup ↔ l.Nodup :=
  (s.perm l).nodup_iff

theorem colMajor_inj {ld r i j i' j' : ℕ} (hr : r ≤ ld) (hi : i < r) (hi' : i' < r)
    (h : i + ld * j = i' + ld * j') : i = i' ∧ j = j' := by
  have h1 : i < ld := by omega
  have h2 : i' < ld := by omega
  have e : i = i' := by
    have := congrArg (· % ld) h
    simpa [Nat.add_mul_mod_self_left, Nat.mod_eq_of_lt h1, Nat.mod_eq_of_lt h2] using this
  subst e
  refine ⟨rfl, ?_⟩
  have h3 : ld * j = ld * j' := by omega
  exact Nat.eq_of_mul_eq_mul_left (by omega) h3

/-- Loop over the elements of `v`, in any order, writing `val i j` to element `(i, j)`. -/
theorem forEach_matrix {v : MView} (l : List (ℕ × ℕ)) (hl : l.Perm (indexPairs v.rows v.cols))
    (hinj : Distinct v)
    (val : ℕ × ℕ → α) (body : ℕ × ℕ → MemM α Unit) (m : Mem α)
    (hb : ∀ p : ℕ × ℕ, p.1 < v.rows → p.2 < v.cols → ∀ m' : Mem α,
      (∀ a, (∀ i j, i < v.rows → j < v.cols → (i, j) ≠ p → a ≠ v.data + i * v.s0 + j * v.s1) →
        m' a = m a) →
      body p m' = (.ok (), fun a => if a = v.data + p.1 * v.s0 + p.2 * v.s1 then some (val p) else m' a)) :
    ∃ m', forEach l body m = (.ok (), m') ∧
      Holds m' v (fun (i : Fin v.rows) (j : Fin v.cols) => val (i, j)) ∧ SameOutside (cells v) m m' := by
  have hm : ∀ p, p ∈ l ↔ p.1 < v.rows ∧ p.2 < v.cols := fun p => hl.mem_iff.trans mem_indexPairs
  obtain ⟨m', e, h1, h2⟩ := forEach_writes (fun p => v.data + p.1 * v.s0 + p.2 * v.s1) val body m l m
    (hl.nodup_iff.2 (nodup_indexPairs _ _))
    (by
      intro x hx y hy h
      obtain ⟨a, b⟩ := hinj x.1 x.2 y.1 y.2 ((hm x).1 hx).1 ((hm x).1 hx).2 ((hm y).1 hy).1 ((hm y).1 hy).2 h
      exact Prod.ext a b)
    (by
      intro x hx m1 h
      refine hb x ((hm x).1 hx).1 ((hm x).1 hx).2 m1 fun a ha => h a fun y hy hne => ?_
      exact ha y.1 y.2 ((hm y).1 hy).1 ((hm y).1 hy).2 hne)
    (fun _ => rfl)
  refine ⟨m', e, ⟨rfl, rfl, fun i j => h1 (i, j) ((hm _).2 ⟨i.2, j.2⟩)⟩, fun a ha => h2 a ?_⟩
  intro p hp e
  exact ha ⟨p.1, p.2, ((hm p).1 hp).1, ((hm p).1 hp).2, e⟩

theorem Spec.ColMajor.inj {v : MView} (hv : ColMajor v) : Distinct v := by
  intro i j i' j' hi _ hi' _ h
  rw [hv.unit] at h
  refine colMajor_inj hv.lead hi hi' ?_
  rw [Nat.mul_comm v.s1, Nat.mul_comm v.s1]
  omega

/-- left-to-right sum without laws -/
def sumL [Add α] [Zero α] : ℕ → (ℕ → α) → α
  | 0, _ => 0
  | k + 1, g => sumL k g + g k

theorem sumL_eq [AddCommMonoid α] (k : ℕ) (g : ℕ → α) : sumL k g = ∑ l : Fin k, g l := by
  induction k with
  | zero => simp [sumL]
  | succ k ih => rw [sumL, ih, Fin.sum_univ_castSucc]; rfl

theorem sumM_ok [Add α] [Zero α] {m : Mem α} {f : ℕ → MemM α α} {g : ℕ → α} :
    ∀ k, (∀ l < k, f l m = (.ok (g l), m)) → sumM k f m = (.ok (sumL k g), m)
  | 0, _ => by simp [sumM, sumL]
  | k + 1, h => by
    rw [sumM, ok_bind (sumM_ok k fun l hl => h l (by omega)), ok_bind (h k (by omega)), SM.pure_apply]
    rfl

theorem mem_cells {v : MView} {i j : ℕ} (hi : i < v.rows) (hj : j < v.cols) :
    v.data + i * v.s0 + j * v.s1 ∈ cells v := ⟨i, j, hi, hj, rfl⟩

theorem addr_eq (v : MView) (i j : ℕ) : v.addr i j = v.data + i * v.s0 + j * v.s1 := by
  simp [MView.addr, Nat.add_assoc]

theorem colAddr_eq {v : MView} (h : v.s0 = 1) (i j : ℕ) :
    v.data + (i + v.s1 * j) = v.data + i * v.s0 + j * v.s1 := by
  rw [h, Nat.mul_comm v.s1]; omega

/-- the elements other than `p` are not written yet: `p` and everything outside is unchanged -/
theorem keep_at {v : MView} {m m' : Mem α} {p : ℕ × ℕ}
    (hinj : Distinct v)
    (h : ∀ a, (∀ i j, i < v.rows → j < v.cols → (i, j) ≠ p → a ≠ v.data + i * v.s0 + j * v.s1) →
        m' a = m a) (h1 : p.1 < v.rows) (h2 : p.2 < v.cols) :
    m' (v.data + p.1 * v.s0 + p.2 * v.s1) = m (v.data + p.1 * v.s0 + p.2 * v.s1) := by
  refine h _ fun i j hi hj hne e => hne ?_
  obtain ⟨a, b⟩ := hinj _ _ _ _ h1 h2 hi hj e
  exact Prod.ext a.symm b.symm

theorem keep_outside {v : MView} {m m' : Mem α} {p : ℕ × ℕ}
    (h : ∀ a, (∀ i j, i < v.rows → j < v.cols → (i, j) ≠ p → a ≠ v.data + i * v.s0 + j * v.s1) →
        m' a = m a) {a : ℕ} (ha : a ∉ cells v) : m' a = m a :=
  h a fun i j hi hj _ e => ha ⟨i, j, hi, hj, e⟩

section blas
variable [Add α] [Mul α] [Zero α] [Star α] [DecidableEq α]

theorem gemm_loop {ta tb : Trans} {k A lda B ldb : ℕ} {alpha beta : α} {C : MView} {m : Mem α}
    (hC : ColMajor C)
    (hlda : ¬ lda < max 1 (match ta with | .N => C.rows | .H => k))
    (hldb : ¬ ldb < max 1 (match tb with | .N => k | .H => C.cols))
    (a b : ℕ → ℕ → α) (c : ℕ → ℕ → α)
    (hA : ∀ i l, i < C.rows → l < k → ∀ m' : Mem α, SameOutside (cells C) m m' →
      opElem ta A lda i l m' = (.ok (a i l), m'))
    (hB : ∀ l j, l < k → j < C.cols → ∀ m' : Mem α, SameOutside (cells C) m m' →
      opElem tb B ldb l j m' = (.ok (b l j), m'))
    (hc : ∀ i j, i < C.rows → j < C.cols → ∃ x, m (C.data + i * C.s0 + j * C.s1) = some x ∧
      (beta ≠ 0 → x = c i j)) :
    Computes (gemm ta tb C.rows C.cols k alpha A lda B ldb beta C.data C.s1) m C
      (fun (i : Fin C.rows) (j : Fin C.cols) =>
        if beta = 0 then alpha * sumL k (fun l => a i l * b l j)
        else alpha * sumL k (fun l => a i l * b l j) + beta * c i j) := by
  unfold gemm
  have hldc : ¬ C.s1 < max 1 C.rows := by have := hC.lead; have := hC.pos; omega
  rw [if_neg (by rintro (h | h | h) <;> contradiction)]
  have key := forEach_matrix (v := C) (indexPairs C.rows C.cols) (List.Perm.refl _)
    (ColMajor.inj hC)
    (fun p => if beta = 0 then alpha * sumL k (fun l => a p.1 l * b l p.2)
        else alpha * sumL k (fun l => a p.1 l * b l p.2) + beta * c p.1 p.2)
    (fun p => do
    let s ← sumM k fun l => do
      let x ← opElem ta A lda p.1 l
      let y ← opElem tb B ldb l p.2
      pure (x * y)
    if beta = 0 then store (C.data + (p.1 + C.s1 * p.2)) (alpha * s)
    else do
      let c ← load (C.data + (p.1 + C.s1 * p.2))
      store (C.data + (p.1 + C.s1 * p.2)) (alpha * s + beta * c)) m
  obtain ⟨m', e, h1, h2⟩ := key (by
    intro p h1 h2 m' hm
    have hout : SameOutside (cells C) m m' := fun a ha => keep_outside hm ha
    obtain ⟨x, hx, hxc⟩ := hc p.1 p.2 h1 h2
    have hx' := (keep_at (ColMajor.inj hC) hm h1 h2).trans hx
    rw [ok_bind (sumM_ok (g := fun l => a p.1 l * b l p.2) k ?_)]
    · simp only [colAddr_eq hC.unit]
      split
      · rw [store_ok hx']
      · rename_i hb
        rw [load_bind hx', store_ok hx', hxc hb]
    · intro l hl
      rw [ok_bind (hA _ _ h1 hl m' hout), ok_bind (hB _ _ hl h2 m' hout)]
      rfl)
  exact ⟨_, m', e, h1, h2⟩

omit [Add α] [Mul α] [Zero α] [DecidableEq α] in
theorem Spec.Holds.opElem_N {r c : ℕ} {m m' : Mem α} {v C : MView} {A : Matrix (Fin r) (Fin c) α}
    (hA : Holds m v A) (hu : v.s0 = 1) (hd : Disjoint (cells v) (cells C))
    (hs : SameOutside (cells C) m m') {i l : ℕ} (hi : i < r) (hl : l < c) :
    opElem .N v.data v.s1 i l m' = (.ok (A ⟨i, hi⟩ ⟨l, hl⟩), m') := by
  obtain ⟨hr, hc, h⟩ := hA
  unfold opElem
  refine load_ok ?_
  rw [colAddr_eq hu, hs _ (Set.disjoint_left.1 hd (mem_cells (hr ▸ hi) (hc ▸ hl)))]
  exact h ⟨i, hi⟩ ⟨l, hl⟩

omit [Add α] [Mul α] [Zero α] [DecidableEq α] in
theorem Spec.Holds.opElem_H {r c : ℕ} {m m' : Mem α} {v C : MView} {A : Matrix (Fin r) (Fin c) α}
    (hA : Holds m v A) (hu : v.s0 = 1) (hd : Disjoint (cells v) (cells C))
    (hs : SameOutside (cells C) m m') {i l : ℕ} (hi : i < c) (hl : l < r) :
    opElem .H v.data v.s1 i l m' = (.ok (star (A ⟨l, hl⟩ ⟨i, hi⟩)), m') := by
  obtain ⟨hr, hc, h⟩ := hA
  unfold opElem
  refine (load_bind (v := A ⟨l, hl⟩ ⟨i, hi⟩) ?_ _).trans rfl
  rw [colAddr_eq hu, hs _ (Set.disjoint_left.1 hd (mem_cells (hr ▸ hl) (hc ▸ hi)))]
  exact h ⟨l, hl⟩ ⟨i, hi⟩

end blas

/-- a matrix as a function on all indices -/
def ext [Zero α] {r c : ℕ} (A : Matrix (Fin r) (Fin c) α) (i j : ℕ) : α :=
  if h : i < r ∧ j < c then A ⟨i, h.1⟩ ⟨j, h.2⟩ else 0

theorem ext_eq [Zero α] {r c : ℕ} (A : Matrix (Fin r) (Fin c) α) {i j : ℕ} (hi : i < r) (hj : j < c) :
    ext A i j = A ⟨i, hi⟩ ⟨j, hj⟩ := by simp [ext, hi, hj]

@[simp] theorem ext_fin [Zero α] {r c : ℕ} (A : Matrix (Fin r) (Fin c) α) (i : Fin r) (j : Fin c) :
    ext A i j = A i j := by simp [ext]

theorem Spec.Computes.congr {β : Type} {r c : ℕ} {p : MemM α β} {m : Mem α} {v : MView}
    {A B : Matrix (Fin r) (Fin c) α} (h : Computes p m v A) (e : ∀ i j, A i j = B i j) :
    Computes p m v B := by
  obtain rfl : A = B := by ext i j; exact e i j
  exact h

theorem Spec.Holds.ext_at [Zero α] {r c : ℕ} {m : Mem α} {v : MView} {A : Matrix (Fin r) (Fin c) α}
    (h : Holds m v A) {i j : ℕ} (hi : i < v.rows) (hj : j < v.cols) :
    m (v.data + i * v.s0 + j * v.s1) = some (ext A i j) := by
  rw [ext_eq A (h.1 ▸ hi) (h.2.1 ▸ hj)]
  exact h.2.2 ⟨i, h.1 ▸ hi⟩ ⟨j, h.2.1 ▸ hj⟩

theorem Spec.Holds.accessible {r c : ℕ} {m : Mem α} {v : MView} {A : Matrix (Fin r) (Fin c) α}
    (h : Holds m v A) : Accessible m v := by
  rintro a ⟨i, j, hi, hj, rfl⟩
  exact ⟨_, h.2.2 ⟨i, h.1 ▸ hi⟩ ⟨j, h.2.1 ▸ hj⟩⟩

/-- an element of the source is not touched before its own iteration -/
theorem Spec.Compatible.keep {dst src : MView} (hd : Distinct dst) (hc : Compatible dst src)
    (hr : src.rows = dst.rows) (hcl : src.cols = dst.cols) {m m' : Mem α} {p : ℕ × ℕ}
    (h : ∀ a, (∀ i j, i < dst.rows → j < dst.cols → (i, j) ≠ p →
      a ≠ dst.data + i * dst.s0 + j * dst.s1) → m' a = m a) (h1 : p.1 < dst.rows) (h2 : p.2 < dst.cols) :
    m' (src.data + p.1 * src.s0 + p.2 * src.s1) = m (src.data + p.1 * src.s0 + p.2 * src.s1) := by
  rcases hc with hc | rfl
  · exact keep_outside h (Set.disjoint_left.1 hc (mem_cells (hr ▸ h1) (hcl ▸ h2)))
  · exact keep_at hd h h1 h2

/-- an element-by-element loop: each iteration reads element `(i, j)` of the source and of the
destination, and stores `val` -/
theorem elementwise {dst src : MView} {m : Mem α} (sch : Sched) (hd : Distinct dst)
    (hc : Compatible dst src) (hr : src.rows = dst.rows) (hcl : src.cols = dst.cols)
    (val : ℕ × ℕ → α) (body : ℕ × ℕ → MemM α Unit)
    (hb : ∀ p : ℕ × ℕ, p.1 < dst.rows → p.2 < dst.cols → ∀ m' : Mem α, SameOutside (cells dst) m m' →
      m' (src.data + p.1 * src.s0 + p.2 * src.s1) = m (src.data + p.1 * src.s0 + p.2 * src.s1) →
      m' (dst.data + p.1 * dst.s0 + p.2 * dst.s1) = m (dst.data + p.1 * dst.s0 + p.2 * dst.s1) →
      body p m' = (.ok (), fun a => if a = dst.data + p.1 * dst.s0 + p.2 * dst.s1 then some (val p)
        else m' a)) :
    Computes (forEach (sch.order (indexPairs dst.rows dst.cols)) body) m dst
      (fun (i : Fin dst.rows) (j : Fin dst.cols) => val (i, j)) := by
  obtain ⟨m', e, h1, h2⟩ := forEach_matrix (v := dst) (sch.order (indexPairs dst.rows dst.cols))
    (sch.perm _) hd val body m (by
      intro p h1 h2 m' hm
      exact hb p h1 h2 m' (fun a ha => keep_outside hm ha) (hc.keep hd hr hcl hm h1 h2)
        (keep_at hd hm h1 h2))
  exact ⟨_, m', e, h1, h2⟩

section axpby
variable [Add α] [Mul α] [Zero α] [DecidableEq α]

theorem axpby_zero {dst src : MView} {m : Mem α} (sch : Sched) (hd : Distinct dst)
    (hc : Compatible dst src) {r c : ℕ} {S : Matrix (Fin r) (Fin c) α} (hS : Holds m src S)
    (hr : dst.rows = r) (hcl : dst.cols = c) (ha : Accessible m dst) (alpha : α) :
    Computes (axpbyLoop sch dst src src.rows src.cols alpha 0) m dst (fun i j => alpha * S i j) := by
  subst hr hcl
  rw [axpbyLoop, if_pos rfl, hS.1, hS.2.1]
  refine Computes.congr (elementwise (m := m) (src := src) sch hd hc hS.1 hS.2.1
    (fun p => alpha * ext S p.1 p.2) _ ?_) (by simp)
  intro p h1 h2 m' hs e1 e2
  obtain ⟨x, hx⟩ := ha _ (mem_cells h1 h2)
  rw [addr_eq, addr_eq, load_bind (e1.trans (hS.ext_at (hS.1.symm ▸ h1) (hS.2.1.symm ▸ h2))),
    store_ok (e2.trans hx)]

theorem axpby_nonzero {dst src : MView} {m : Mem α} (sch : Sched) (hd : Distinct dst)
    (hc : Compatible dst src) {r c : ℕ} {S D : Matrix (Fin r) (Fin c) α} (hS : Holds m src S)
    (hD : Holds m dst D) (alpha : α) {beta : α} (hb : beta ≠ 0) :
    Computes (axpbyLoop sch dst src src.rows src.cols alpha beta) m dst
      (fun i j => D i j * beta + alpha * S i j) := by
  obtain ⟨hr, hcl, _⟩ := id hD
  subst hr hcl
  rw [axpbyLoop, if_neg hb, hS.1, hS.2.1]
  refine Computes.congr (elementwise (m := m) (src := src) sch hd hc hS.1 hS.2.1
    (fun p => ext D p.1 p.2 * beta + alpha * ext S p.1 p.2) _ ?_) (by simp)
  intro p h1 h2 m' hs e1 e2
  have hx := e2.trans (hD.ext_at h1 h2)
  rw [addr_eq, addr_eq, load_bind hx,
    load_bind (e1.trans (hS.ext_at (hS.1.symm ▸ h1) (hS.2.1.symm ▸ h2))), store_ok hx]

end axpby

/-- freshly allocated memory -/
theorem allocate_eq (base n : ℕ) (g : ℕ → α) (m : Mem α) : allocate base n g m =
    (.ok (), fun a => if base ≤ a ∧ a < base + n then some (g a) else m a) := rfl

theorem Spec.Free.not_some {m : Mem α} {base n a : ℕ} {x : α} (h : Free m base n) (ha : m a = some x) :
    ¬ (base ≤ a ∧ a < base + n) := by
  rintro ⟨h1, h2⟩
  rw [h a h1 h2] at ha
  simp at ha

theorem lt_mul_of_cell {i j r c : ℕ} (hi : i < r) (hj : j < c) : i + j * r < r * c := by
  calc i + j * r < r + j * r := by omega
    _ = (j + 1) * r := by ring
    _ ≤ c * r := Nat.mul_le_mul_right _ hj
    _ = r * c := Nat.mul_comm _ _

/-- the addresses of a contiguous matrix -/
theorem cells_contiguous {base r c : ℕ} {l : Bool} {a : ℕ} (h : a ∈ cells ⟨base, r, c, 1, r, l⟩) :
    base ≤ a ∧ a < base + r * c := by
  obtain ⟨i, j, hi, hj, rfl⟩ := h
  have := lt_mul_of_cell hi hj
  dsimp only at *
  omega

theorem mem_cells_contiguous {base r c : ℕ} {l : Bool} {a : ℕ} (h1 : base ≤ a) (h2 : a < base + r * c) :
    a ∈ cells ⟨base, r, c, 1, r, l⟩ := by
  have hr : 0 < r := Nat.pos_of_ne_zero fun e => by subst e; simp at h2; omega
  refine ⟨(a - base) % r, (a - base) / r, Nat.mod_lt _ hr, ?_, ?_⟩
  · rw [Nat.div_lt_iff_lt_mul hr, Nat.mul_comm]; dsimp only; omega
  · have := Nat.mod_add_div (a - base) r
    rw [Nat.mul_comm r] at this
    dsimp only
    omega

end Nlcg
