import Verif.Spec.MemAlgo
import Verif.Proofs.Gpu
import Verif.Proofs.Solver
import Verif.Props.Memory
import Mathlib.Data.Set.Finite.Lattice

/-! Lemmas about the programs on memory of one k-point. -/

namespace Nlcg
open Spec Matrix

/-! ## Memory that only grows -/

theorem mem_eq_cells (v : MView) : v.mem = cells v := by
  ext a
  simp only [MView.mem, cells, addr_eq]

theorem vecMem_eq (w n : ℕ) : vecMem w n = vecCells w n := rfl

theorem cells_finite (v : MView) : (cells v).Finite := by
  refine Set.Finite.subset (((Set.finite_Iio v.rows).prod (Set.finite_Iio v.cols)).image
    fun p => v.data + p.1 * v.s0 + p.2 * v.s1) ?_
  rintro a ⟨i, j, hi, hj, rfl⟩
  exact ⟨(i, j), ⟨hi, hj⟩, rfl⟩

theorem vecCells_finite (w n : ℕ) : (vecCells w n).Finite :=
  (Set.finite_Ico w (w + n)).subset fun _ h => h

theorem Spec.Finite.step {S : Set ℕ} {m m' : Mem ℂ} (h : Finite m) (hs : SameOutside S m m') (hS : S.Finite) :
    Finite m' := by
  refine (Set.Finite.union h hS).subset fun a ha => ?_
  by_cases hh : a ∈ S
  · exact .inr hh
  · exact .inl (by rw [Set.mem_ofPred_eq, ← hs a hh]; exact ha)

/-- what was in use outside `S` is unchanged, and memory is finite -/
structure Ext (S : Set ℕ) (m0 m : Mem ℂ) : Prop where
  fin : Spec.Finite m
  keep : ∀ a x, a ∉ S → m0 a = some x → m a = some x

theorem Ext.refl {m : Mem ℂ} (h : Finite m) (S : Set ℕ) : Ext S m m := ⟨h, fun _ _ _ h => h⟩

theorem Ext.trans {S : Set ℕ} {m0 m m' : Mem ℂ} (h : Ext S m0 m) (h' : Ext ∅ m m') : Ext S m0 m' :=
  ⟨h'.fin, fun a x ha hx => h'.keep a x (by simp) (h.keep a x ha hx)⟩

/-- a change of memory that was free at the start -/
theorem Ext.step {S T : Set ℕ} {m0 m m' : Mem ℂ} (h : Ext S m0 m) (hs : SameOutside T m m') (hT : T.Finite)
    (hf : ∀ a ∈ T, a ∈ S ∨ m0 a = none) : Ext S m0 m' := by
  refine ⟨h.fin.step hs hT, fun a x ha hx => ?_⟩
  rw [hs a]
  · exact h.keep a x ha hx
  · intro hat
    rcases hf a hat with h' | h'
    · exact ha h'
    · rw [h'] at hx; cases hx

theorem Ext.new {m m' : Mem ℂ} {T : Set ℕ} (h : Finite m) (hf : ∀ a ∈ T, m a = none) (hs : SameOutside T m m')
    (hT : T.Finite) : Ext ∅ m m' := (Ext.refl h ∅).step hs hT fun a ha => .inr (hf a ha)

/-- what is free later was free at the start -/
theorem Ext.free {S : Set ℕ} {m0 m : Mem ℂ} (h : Ext S m0 m) {a : ℕ} (ha : m a = none) (hS : a ∉ S) :
    m0 a = none := by
  by_contra hne
  obtain ⟨x, hx⟩ := Option.ne_none_iff_exists'.1 hne
  rw [h.keep a x hS hx] at ha
  cases ha

theorem Ext.free' {m0 m : Mem ℂ} (h : Ext ∅ m0 m) {T : Set ℕ} (hT : ∀ a ∈ T, m a = none) :
    ∀ a ∈ T, m0 a = none := fun a ha => h.free (hT a ha) (by simp)

theorem Spec.Holds.ext {r c : ℕ} {S : Set ℕ} {m m' : Mem ℂ} {v : MView} {A : Mat r c} (h : Holds m v A)
    (e : Ext S m m') (hd : Disjoint (cells v) S) : Holds m' v A :=
  ⟨h.1, h.2.1, fun i j => e.keep _ _
    (Set.disjoint_left.1 hd (mem_cells (h.1 ▸ i.2) (h.2.1 ▸ j.2))) (h.2.2 i j)⟩

theorem Spec.Holds.ext0 {r c : ℕ} {m m' : Mem ℂ} {v : MView} {A : Mat r c} (h : Holds m v A)
    (e : Ext ∅ m m') : Holds m' v A := h.ext e (by simp)

theorem Spec.HoldsReal.ext0 {n : ℕ} {m m' : Mem ℂ} {w : ℕ} {x : Fin n → ℝ} (h : HoldsReal m w x)
    (e : Ext ∅ m m') : HoldsReal m' w x := fun i => e.keep _ _ (by simp) (h i)

theorem Spec.HoldsReal.frame {n : ℕ} {m m' : Mem ℂ} {w : ℕ} {x : Fin n → ℝ} {S : Set ℕ}
    (h : HoldsReal m w x) (hs : SameOutside S m m') (hd : Disjoint (vecCells w n) S) : HoldsReal m' w x :=
  HoldsVec.frame h hs hd

theorem Spec.HoldsReal.some {n : ℕ} {m : Mem ℂ} {w : ℕ} {x : Fin n → ℝ} (h : HoldsReal m w x) :
    ∀ a ∈ vecCells w n, ∃ y, m a = some y := by
  rintro a ⟨h1, h2⟩
  refine ⟨(x ⟨a - w, by omega⟩ : ℂ), ?_⟩
  rw [← h ⟨a - w, by omega⟩]
  congr 1
  simp only
  omega

/-- what is in use is apart from what was free -/
theorem disjoint_new {m : Mem ℂ} {S T : Set ℕ} (hS : ∀ a ∈ S, ∃ x, m a = some x) (hT : ∀ a ∈ T, m a = none) :
    Disjoint S T := by
  rw [Set.disjoint_left]
  intro a ha hb
  obtain ⟨x, hx⟩ := hS a ha
  rw [hT a hb] at hx
  cases hx

/-! ## The end of a function -/

theorem withScope_ok {β : Type} {own : β → Set ℕ} {p : MemM ℂ β} {m m1 : Mem ℂ} {x : β} {S : Set ℕ}
    (e : p m = (.ok x, m1)) (h : Ext S m m1) :
    ∃ m', withScope own p m = (.ok x, m') ∧ (∀ a, a ∈ own x ∨ m a ≠ none → m' a = m1 a) ∧
      SameOutside (own x ∪ S) m m' := by
  classical
  refine ⟨fun a => if m a = none ∧ a ∉ own x then none else m1 a, by rw [withScope, e], ?_, ?_⟩
  · rintro a (h' | h')
    · simp [h']
    · simp [h']
  · intro a ha
    simp only [Set.mem_union, not_or] at ha
    by_cases hn : m a = none
    · simp [hn, ha.1]
    · obtain ⟨y, hy⟩ := Option.ne_none_iff_exists'.1 hn
      simp only [hn, false_and, if_false]
      rw [h.keep a y ha.2 hy, hy]

theorem withScope_throw {β : Type} {own : β → Set ℕ} {p : MemM ℂ β} {m m1 : Mem ℂ} {x : Exc}
    (e : p m = (.throw x, m1)) (h : Ext ∅ m m1) : withScope own p m = (.throw x, m) := by
  rw [withScope, e]
  simp only [Prod.mk.injEq, true_and]
  funext a
  by_cases hn : m a = none
  · simp [hn]
  · obtain ⟨y, hy⟩ := Option.ne_none_iff_exists'.1 hn
    simp only [hn, if_false]
    rw [h.keep a y (by simp) hy, hy]

/-- a function with a new matrix as result -/
theorem newMat_scope {r c : ℕ} {p : MemM ℂ MView} {m m1 : Mem ℂ} {v : MView} {A : Mat r c}
    (e : p m = (.ok v, m1)) (h : Ext ∅ m m1) (cv : ColMajor v) (hA : Holds m1 v A)
    (hf : ∀ a ∈ cells v, m a = none) : NewMat (withScope MView.mem p) m (.ok A) := by
  obtain ⟨m', e', k, s⟩ := withScope_ok (own := MView.mem) e h
  rw [mem_eq_cells] at k s
  refine ⟨v, m', e', ⟨cv, hA.1, hA.2.1, fun i j => ?_⟩, hf, by simpa using s⟩
  rw [k _ (.inl (mem_cells (hA.1 ▸ i.2) (hA.2.1 ▸ j.2)))]
  exact hA.2.2 i j

theorem throw_bind {β γ : Type} {p : MemM ℂ β} {m m' : Mem ℂ} {x : Exc} (h : p m = (.throw x, m'))
    (f : β → MemM ℂ γ) : (p >>= f) m = (.throw x, m') := by
  rw [SM.bind_apply, h]

/-! ## New matrices -/

section
variable {E : HostEnv} {la : Lapack} {m : Mem ℂ}

theorem contiguous_colMajor {b r c : ℕ} (hr : 0 < r) : ColMajor ⟨b, r, c, 1, r, true⟩ :=
  ⟨rfl, le_refl _, hr, rfl⟩

theorem zeros_ok (hE : EnvOk E la) (hm : Finite m) (r c : ℕ) (l : Bool) :
    ∃ b m', E.zeros r c l m = (.ok ⟨b, r, c, 1, r, l⟩, m') ∧
      Holds m' ⟨b, r, c, 1, r, l⟩ (0 : Mat r c) ∧
      (∀ a ∈ cells ⟨b, r, c, 1, r, l⟩, m a = none) ∧ SameOutside (cells ⟨b, r, c, 1, r, l⟩) m m' := by
  refine ⟨E.heap.place m (r * c), _, rfl, ⟨rfl, rfl, fun i j => ?_⟩, ?_, ?_⟩
  · have : E.heap.place m (r * c) + i * 1 + j * r ∈ cells ⟨E.heap.place m (r * c), r, c, 1, r, l⟩ :=
      mem_cells i.2 j.2
    rw [cells_vec] at this
    exact if_pos this
  · intro a ha
    rw [cells_vec] at ha
    exact hE.heap m _ hm a ha.1 ha.2
  · rw [cells_vec]
    exact allocate_outside _ _ _ _

theorem empty_ok (hE : EnvOk E la) (hm : Finite m) (r c : ℕ) (l : Bool) :
    ∃ b m', E.empty r c l m = (.ok ⟨b, r, c, 1, r, l⟩, m') ∧
      Accessible m' ⟨b, r, c, 1, r, l⟩ ∧
      (∀ a ∈ cells ⟨b, r, c, 1, r, l⟩, m a = none) ∧ SameOutside (cells ⟨b, r, c, 1, r, l⟩) m m' := by
  refine ⟨E.heap.place m (r * c), _, rfl, ?_, ?_, ?_⟩
  · intro a ha
    rw [cells_vec] at ha
    exact ⟨_, if_pos ha⟩
  · intro a ha
    rw [cells_vec] at ha
    exact hE.heap m _ hm a ha.1 ha.2
  · rw [cells_vec]
    exact allocate_outside _ _ _ _

theorem vec_ok (hE : EnvOk E la) (hm : Finite m) (n : ℕ) :
    ∃ b m', E.vec n m = (.ok b, m') ∧ HoldsVec m' b (fun _ : Fin n => (0 : ℂ)) ∧
      (∀ a ∈ vecCells b n, m a = none) ∧ SameOutside (vecCells b n) m m' := by
  refine ⟨E.heap.place m n, _, rfl, fun i => ?_, ?_, allocate_outside _ _ _ _⟩
  · exact if_pos ⟨by omega, by omega⟩
  · intro a ha
    exact hE.heap m _ hm a ha.1 ha.2

theorem Spec.Accessible.frame {m m' : Mem ℂ} {v : MView} {S : Set ℕ} (h : Accessible m v)
    (hs : SameOutside S m m') (hd : Disjoint (cells v) S) : Accessible m' v := by
  intro a ha
  rw [hs a (Set.disjoint_left.1 hd ha)]
  exact h a ha

theorem Spec.Accessible.ext0 {m m' : Mem ℂ} {v : MView} (h : Accessible m v) (e : Ext ∅ m m') :
    Accessible m' v := by
  intro a ha
  obtain ⟨x, hx⟩ := h a ha
  exact ⟨x, e.keep a x (by simp) hx⟩

theorem innerNew_ok (hE : EnvOk E la) (hm : Finite m) {r a b : ℕ} (ha : 0 < a) {vA vB : MView}
    {A : Mat r a} {B : Mat r b} (cA : ColMajor vA) (cB : ColMajor vB) (hA : Holds m vA A) (hB : Holds m vB B)
    (alpha : ℂ) : NewMat (innerNew E vA vB alpha) m (.ok (innerM A B alpha)) := by
  obtain ⟨c, m1, e1, h1, f1, s1⟩ := zeros_ok hE hm vA.cols vB.cols vA.isLocal
  obtain ⟨ar, rfl, _⟩ := id hA
  obtain ⟨br, rfl, _⟩ := id hB
  have x1 := Ext.new hm f1 s1 (cells_finite _)
  rw [cA.single] at e1 h1 f1 s1
  have cC : ColMajor ⟨c, vA.cols, vB.cols, 1, vA.cols, true⟩ := contiguous_colMajor ha
  obtain ⟨_, m2, e2, h2, s2⟩ := C44_inner alpha 0 cA cB cC (hA.ext0 x1) (hB.ext0 x1) h1
    (disjoint_new hA.accessible f1) (disjoint_new hB.accessible f1)
  refine ⟨⟨c, vA.cols, vB.cols, 1, vA.cols, true⟩, m2, ?_, ⟨cC, ?_⟩, f1, ?_⟩
  · rw [innerNew, cA.single, ok_bind e1, ok_bind e2, SM.pure_apply]
  · simpa [innerM] using h2
  · simpa using s1.trans s2

theorem transformNew_ok (hE : EnvOk E la) (hm : Finite m) {r a : ℕ} (hr : 0 < r) {vA vB : MView}
    {A : Mat r a} {B : Mat a a} (cA : ColMajor vA) (cB : ColMajor vB) (hA : Holds m vA A) (hB : Holds m vB B) :
    NewMat (transformNew E vA vB) m (.ok (transformM A B)) := by
  obtain ⟨c, m1, e1, h1, f1, s1⟩ := zeros_ok hE hm vA.rows vA.cols vA.isLocal
  obtain ⟨rfl, rfl, _⟩ := id hA
  have x1 := Ext.new hm f1 s1 (cells_finite _)
  rw [cA.single] at e1 h1 f1 s1
  have cC : ColMajor ⟨c, vA.rows, vA.cols, 1, vA.rows, true⟩ := contiguous_colMajor hr
  obtain ⟨_, m2, e2, h2, s2⟩ := C44_transform 1 0 cA cB cC (hA.ext0 x1) (hB.ext0 x1) h1
    (disjoint_new hA.accessible f1) (disjoint_new hB.accessible f1)
  refine ⟨⟨c, vA.rows, vA.cols, 1, vA.rows, true⟩, m2, ?_, ⟨cC, ?_⟩, f1, ?_⟩
  · rw [transformNew, cA.single, ok_bind e1, ok_bind e2, SM.pure_apply]
  · simpa [transformM] using h2
  · simpa using s1.trans s2

theorem applyOp_ok (hE : EnvOk E la) (hm : Finite m) {N B : ℕ} (hN : 0 < N) {op : HostOp} {S : Mat N N}
    (hop : Applies op S) {x : MView} {X : Mat N B} (cx : ColMajor x) (hx : Holds m x X) :
    NewMat (applyOp E op x) m (.ok (S * X)) := by
  obtain ⟨c, m1, e1, h1, f1, s1⟩ := empty_ok hE hm x.rows x.cols x.isLocal
  obtain ⟨rfl, rfl, _⟩ := id hx
  have x1 := Ext.new hm f1 s1 (cells_finite _)
  rw [cx.single] at e1 h1 f1 s1
  have cC : ColMajor ⟨c, x.rows, x.cols, 1, x.rows, true⟩ := contiguous_colMajor hN
  obtain ⟨_, m2, e2, h2, s2⟩ := hop _ _ x m1 X cC cx rfl rfl (hx.ext0 x1) h1 (disjoint_new hx.accessible f1)
  refine ⟨⟨c, x.rows, x.cols, 1, x.rows, true⟩, m2, ?_, ⟨cC, h2⟩, f1, ?_⟩
  · rw [applyOp, cx.single, ok_bind e1, ok_bind e2, SM.pure_apply]
  · simpa using s1.trans s2

theorem copyNew_ok (hE : EnvOk E la) (hm : Finite m) {r c : ℕ} (hr : 0 < r) {like x : MView} {X : Mat r c}
    (cl : ColMajor like) (hlr : like.rows = r) (hlc : like.cols = c) (hx : Holds m x X) :
    NewMat (copyNew E like x) m (.ok X) := by
  obtain ⟨b, m1, e1, h1, f1, s1⟩ := empty_ok hE hm like.rows like.cols like.isLocal
  subst hlr hlc
  have x1 := Ext.new hm f1 s1 (cells_finite _)
  rw [cl.single] at e1 h1 f1 s1
  have cC : ColMajor ⟨b, like.rows, like.cols, 1, like.rows, true⟩ := contiguous_colMajor hr
  obtain ⟨_, m2, e2, h2, s2⟩ := deepCopy_computes E.sch cC.inj (.inl (disjoint_new hx.accessible f1))
    (hx.ext0 x1) rfl rfl h1
  refine ⟨⟨b, like.rows, like.cols, 1, like.rows, true⟩, m2, ?_, ⟨cC, h2⟩, f1, ?_⟩
  · rw [copyNew, cl.single, ok_bind e1, ok_bind e2, SM.pure_apply]
  · simpa using s1.trans s2

theorem zeros_new (hE : EnvOk E la) (hm : Finite m) {r c r' c' : ℕ} {l : Bool} (hr : r' = r) (hc : c' = c)
    (hl : l = true) (h0 : 0 < r) : ∃ v m', E.zeros r' c' l m = (.ok v, m') ∧ ColMajor v ∧
      Holds m' v (0 : Mat r c) ∧ (∀ a ∈ cells v, m a = none) ∧ SameOutside (cells v) m m' := by
  subst hr hc hl
  obtain ⟨b, m1, e1, h1, f1, s1⟩ := zeros_ok hE hm r' c' true
  exact ⟨_, m1, e1, contiguous_colMajor h0, h1, f1, s1⟩

theorem empty_new (hE : EnvOk E la) (hm : Finite m) {r c r' c' : ℕ} {l : Bool} (hr : r' = r) (hc : c' = c)
    (hl : l = true) (h0 : 0 < r) : ∃ v m', E.empty r' c' l m = (.ok v, m') ∧ ColMajor v ∧
      v.rows = r ∧ v.cols = c ∧ Accessible m' v ∧ (∀ a ∈ cells v, m a = none) ∧
      SameOutside (cells v) m m' := by
  subst hr hc hl
  obtain ⟨b, m1, e1, h1, f1, s1⟩ := empty_ok hE hm r' c' true
  exact ⟨_, m1, e1, contiguous_colMajor h0, rfl, rfl, h1, f1, s1⟩

/-! ## Eigenvalues, systems of equations -/

theorem eighHost_run (hE : EnvOk E la) {n : ℕ} {U S : MView} {w : ℕ} {A : Mat n n} (cU : ColMajor U)
    (hUr : U.rows = n) (hUc : U.cols = n) (hU : Accessible m U) (cS : ColMajor S) (hS : Holds m S A)
    (hw : ∀ a ∈ vecCells w n, ∃ x, m a = some x) (dS : Disjoint (cells S) (cells U))
    (dw : Disjoint (cells U) (vecCells w n)) :
    ∃ m', eighHost E.lib E.sch U w S m =
        (if (la.heevd A).2 ≠ 0 then .throw .runtimeError else .ok (), m') ∧
      Holds m' U (la.heevd A).1.2 ∧ HoldsReal m' w (la.heevd A).1.1 ∧
      SameOutside (cells U ∪ vecCells w n) m m' := by
  obtain ⟨_, m1, e1, h1, s1⟩ := deepCopy_computes E.sch cU.inj (.inl dS) hS hUr hUc hU
  obtain ⟨i, hV, hω, s⟩ := hE.lapack.heevd n U w m1 A cU h1 (fun a ha => by
    rw [s1 a (Set.disjoint_right.1 dw ha)]; exact hw a ha) dw
  refine ⟨_, ?_, hV, hω, fun a ha => ?_⟩
  · rw [eighHost, if_pos cS.single, ok_bind e1, SM.get_bind]
    simp only [SM.bind_apply, SM.modify_apply]
    rw [hUc, i]
    split <;> rfl
  · rw [s a ha, s1 a fun h => ha (.inl h)]

theorem solveSymHost_run (hE : EnvOk E la) {n k : ℕ} {vA vB : MView} {A : Mat n n} {B : Mat n k}
    (cA : ColMajor vA) (cB : ColMajor vB) (hA : Holds m vA A) (hB : Holds m vB B)
    (hd : Disjoint (cells vA) (cells vB)) :
    ∃ m', solveSymHost E.lib vA vB m = (.ok (), m') ∧ Holds m' vB (la.solve A B) ∧
      SameOutside (cells vA ∪ cells vB) m m' := by
  obtain ⟨h1, s1⟩ := hE.lapack.potrf n vA m A cA hA
  obtain ⟨h2, s2⟩ := hE.lapack.potrs n k vA vB _ _ B cA cB h1 (hB.frame s1 hd.symm) hd
  refine ⟨_, ?_, h2, s1.trans s2⟩
  rw [solveSymHost, if_pos (by simp [cA.single, cB.single]), if_neg (by simp [cA.unit, cB.unit]),
    SM.get_bind]
  simp only [SM.bind_apply, SM.modify_apply, SM.get]
  rw [hA.1, hB.2.1]

theorem loewdinAuxK_run {n w : ℕ} {x : Fin n → ℝ} (hx : HoldsReal m w x) :
    ∃ m', loewdinAuxK w n m = (.ok (), m') ∧ HoldsReal m' w (loewdinAux x) ∧
      SameOutside (vecCells w n) m m' := by
  obtain ⟨m', e, h1, h2⟩ := forEach_writes (fun k => w + k)
    (fun k => if h : k < n then (loewdinAux x ⟨k, h⟩ : ℂ) else 0)
    (fun i => do let x ← load (w + i); store (w + i) ((1 / √x.re : ℝ) : ℂ)) m (List.range n) m
    List.nodup_range (by intro a _ b _ h; simpa using h) (by
      intro k hk m1 hm
      have hk' : k < n := List.mem_range.1 hk
      have e1 : m1 (w + k) = some ((x ⟨k, hk'⟩ : ℝ) : ℂ) := by
        rw [hm _ fun y _ hy => by omega]; exact hx ⟨k, hk'⟩
      rw [load_bind e1, store_ok e1]
      simp [hk', loewdinAux]) (fun _ => rfl)
  refine ⟨m', e, fun i => ?_, fun a ha => h2 a fun k hk e => ha ?_⟩
  · rw [h1 i (List.mem_range.2 i.2)]
    simp
  · have := List.mem_range.1 hk
    exact ⟨by omega, by omega⟩

theorem loewdinMem_ok (hE : EnvOk E la) (hm : Finite m) {N B : ℕ} (hN : 0 < N) (hB : 0 < B) {vX vSX : MView}
    {X SX : Mat N B} (cX : ColMajor vX) (cSX : ColMajor vSX) (hX : Holds m vX X) (hSX : Holds m vSX SX) :
    NewMat (loewdinMem E vX vSX) m (loewdin la X SX) := by
  obtain ⟨M, m1, e1, ⟨cM, hM⟩, f1, s1⟩ := innerNew_ok hE hm hB cX cSX hX hSX 1
  have x1 := Ext.new hm f1 s1 (cells_finite _)
  obtain ⟨w, m2, e2, hw, f2, s2⟩ := vec_ok hE x1.fin vX.cols
  have x2' := Ext.new x1.fin f2 s2 (vecCells_finite _ _)
  have x2 := x1.trans x2'
  obtain ⟨U, m3, e3, cU, hUr, hUc, hU, f3, s3⟩ := empty_new hE x2.fin hM.1 hM.2.1 cM.single hB
  have x3' := Ext.new x2.fin f3 s3 (cells_finite _)
  have x3 := x2.trans x3'
  rw [hX.2.1] at e2 hw f2 s2
  have hM3 := (hM.ext0 x2').ext0 x3'
  have aw2 : ∀ a ∈ vecCells w B, ∃ x, m2 a = some x := fun a ha =>
    ⟨0, by have := hw ⟨a - w, by have := ha.2; have := ha.1; omega⟩
           rwa [show w + (a - w) = a by have := ha.1; omega] at this⟩
  have dMU : Disjoint (cells M) (cells U) := disjoint_new (hM.ext0 x2').accessible f3
  have dMw : Disjoint (cells M) (vecCells w B) := disjoint_new hM.accessible f2
  have dwU : Disjoint (vecCells w B) (cells U) := disjoint_new aw2 f3
  obtain ⟨m4, e4, hV, hω, s4⟩ := eighHost_run hE cU hUr hUc hU cM hM3 (w := w)
    (fun a ha => by obtain ⟨x, hx⟩ := aw2 a ha; exact ⟨x, x3'.keep a x (by simp) hx⟩) dMU dwU.symm
  have x4 := x3.step s4 ((cells_finite _).union (vecCells_finite _ _)) (by
    rintro a (ha | ha)
    · exact .inr (x2.free' f3 a ha)
    · exact .inr (x1.free' f2 a ha))
  have pre : (do
      let M ← innerNew E vX vSX 1
      let w ← E.vec vX.cols
      let U ← E.empty M.rows M.cols M.isLocal
      eighHost E.lib E.sch U w M
      loewdinAuxK w vX.cols
      scaleColsK E.sch M U w 1 0
      let R ← E.zeros U.rows U.cols U.isLocal
      outerK R M U 1 0
      let Y ← E.zeros vX.rows vX.cols vX.isLocal
      transformK Y 0 1 vX R
      pure Y : MemM ℂ MView) m = (do
      eighHost E.lib E.sch U w M
      loewdinAuxK w vX.cols
      scaleColsK E.sch M U w 1 0
      let R ← E.zeros U.rows U.cols U.isLocal
      outerK R M U 1 0
      let Y ← E.zeros vX.rows vX.cols vX.isLocal
      transformK Y 0 1 vX R
      pure Y : MemM ℂ MView) m3 := by
    rw [ok_bind e1, hX.2.1, ok_bind e2, ok_bind e3]
  unfold loewdinMem loewdin
  by_cases hi : (la.heevd (innerM X SX)).2 = 0
  · simp only [hi, ne_eq, not_true_eq_false, if_false] at e4
    obtain ⟨m5, e5, hω', s5⟩ := loewdinAuxK_run hω
    have x5 := x4.step s5 (vecCells_finite _ _) (fun a ha => .inr (x1.free' f2 a ha))
    have hV5 := hV.frame s5 dwU.symm
    have hM5 := (hM3.accessible.frame s4 (by simp [dMU, dMw])).frame s5 dMw
    obtain ⟨_, m6, e6, h6, s6⟩ := C45_scale_columns E.sch 1 cU.unit cM.inj hM.1 hM.2.1 hV5 hω'
      (.inl dMU.symm) hM5 (fun j => Set.disjoint_right.1 dMw ⟨by omega, by omega⟩)
    have x6 := x5.step s6 (cells_finite _) (fun a ha => .inr (f1 a ha))
    have hV6 := hV5.frame s6 dMU.symm
    obtain ⟨R, m7, e7, cR, hR, f7, s7⟩ := zeros_new hE x6.fin hUr hUc cU.single hB
    have x7' := Ext.new x6.fin f7 s7 (cells_finite _)
    have x7 := x6.trans x7'
    obtain ⟨_, m8, e8, h8, s8⟩ := C44_outer_partial 1 0 cM cU cR (h6.ext0 x7') (hV6.ext0 x7') hR
      (disjoint_new h6.accessible f7) (disjoint_new hV6.accessible f7)
    have x8 := x7.step s8 (cells_finite _) (fun a ha => .inr (x6.free' f7 a ha))
    obtain ⟨Y, m9, e9, cY, hY, f9, s9⟩ := zeros_new hE x8.fin hX.1 hX.2.1 cX.single hN
    have x9' := Ext.new x8.fin f9 s9 (cells_finite _)
    have x9 := x8.trans x9'
    obtain ⟨_, m10, e10, h10, s10⟩ := C44_transform 1 0 cX cR cY (hX.ext0 x9) (h8.ext0 x9') hY
      (disjoint_new (hX.ext0 x8).accessible f9) (disjoint_new h8.accessible f9)
    have x10 := x9.step s10 (cells_finite _) (fun a ha => .inr (x8.free' f9 a ha))
    have res : (do
      let (w, U) ← la.eigh (innerM X SX)
      pure (transformM X (outerM (scaleCols U (loewdinAux w) 1) U))) =
        Res.ok (transformM X (outerM (scaleCols (la.heevd (innerM X SX)).1.2
          (loewdinAux (la.heevd (innerM X SX)).1.1) 1) (la.heevd (innerM X SX)).1.2)) := by
      simp only [Lapack.eigh, hi, ne_eq, not_true_eq_false, if_false]
      rfl
    simp only [res]
    refine newMat_scope (v := Y) (m1 := m10) ?_ x10 cY ?_ (x8.free' f9)
    · rw [pre, ok_bind e4, hX.2.1, ok_bind e5, ok_bind e6, ok_bind e7, ok_bind e8]
      rw [hX.2.1] at e9
      rw [ok_bind e9, ok_bind e10, SM.pure_apply]
    · have hs : scaleCols (la.heevd (innerM X SX)).1.2 (loewdinAux (la.heevd (innerM X SX)).1.1) 1 =
          fun i j => 1 * ((loewdinAux (la.heevd (innerM X SX)).1.1 j : ℝ) : ℂ) *
            (la.heevd (innerM X SX)).1.2 i j := by
        ext i j
        simp [scaleCols]
      rw [hs]
      simpa [transformM, outerM] using h10
  · simp only [hi, ne_eq, not_false_eq_true, if_true] at e4
    have res : (do
      let (w, U) ← la.eigh (innerM X SX)
      pure (transformM X (outerM (scaleCols U (loewdinAux w) 1) U))) =
        Res.throw (β := Mat N B) .runtimeError := by
      simp only [Lapack.eigh, hi, ne_eq, not_false_eq_true, if_true]
      rfl
    simp only [res]
    refine withScope_throw (m1 := m4) ?_ x4
    rw [pre, throw_bind e4]

/-! ## Steps -/

theorem advanceEtaMem_ok (hE : EnvOk E la) (hm : Finite m) {B : ℕ} (hB : 0 < B) {v d : MView}
    {eta deta : Mat B B} (cd : ColMajor d) (hv : Holds m v eta) (hd : Holds m d deta) (t : ℝ) :
    NewMat (advanceEtaMem E t v d) m (.ok (advanceEta t eta deta)) := by
  obtain ⟨n, m1, e1, ⟨cn, hn⟩, f1, s1⟩ := copyNew_ok hE hm hB cd hd.1 hd.2.1 hv
  have x1 := Ext.new hm f1 s1 (cells_finite _)
  obtain ⟨_, m2, e2, h2, s2⟩ := C44_add E.sch (t : ℂ) 1 cd cn (hd.ext0 x1) hn
    (.inl (disjoint_new hd.accessible f1))
  refine ⟨n, m2, ?_, ⟨cn, h2⟩, f1, by simpa using s1.trans s2⟩
  rw [advanceEtaMem, ok_bind e1, ok_bind e2, SM.pure_apply]

/-- eigenvalues and eigenvectors of a matrix: memory grows by these, also if the solver fails -/
theorem eigvalsMem_run (hE : EnvOk E la) (hm : Finite m) {B : ℕ} (hB : 0 < B) {v : MView} {A : Mat B B}
    (cv : ColMajor v) (hv : Holds m v A) :
    ∃ ek ul m', eigvalsMem E v m = (if (la.heevd A).2 ≠ 0 then .throw .runtimeError else .ok (ek, ul), m') ∧
      ColMajor ul ∧ Holds m' ul (la.heevd A).1.2 ∧ HoldsReal m' ek (la.heevd A).1.1 ∧
      Disjoint (vecCells ek B) (cells ul) ∧ (∀ a ∈ vecCells ek B ∪ cells ul, m a = none) ∧
      SameOutside (vecCells ek B ∪ cells ul) m m' := by
  obtain ⟨U, m1, e1, cU, hUr, hUc, hU, f1, s1⟩ := empty_new hE hm hv.1 hv.2.1 cv.single hB
  have x1 := Ext.new hm f1 s1 (cells_finite _)
  obtain ⟨w, m2, e2, hw, f2, s2⟩ := vec_ok hE x1.fin U.cols
  have x2' := Ext.new x1.fin f2 s2 (vecCells_finite _ _)
  have x2 := x1.trans x2'
  rw [hUc] at e2 hw f2 s2
  have aw : ∀ a ∈ vecCells w B, ∃ x, m2 a = some x := fun a ha =>
    ⟨0, by have := hw ⟨a - w, by have := ha.2; have := ha.1; omega⟩
           rwa [show w + (a - w) = a by have := ha.1; omega] at this⟩
  have dUw : Disjoint (cells U) (vecCells w B) := disjoint_new hU f2
  obtain ⟨m3, e3, hV, hω, s3⟩ := eighHost_run hE cU hUr hUc (hU.ext0 x2') cv (hv.ext0 x2) aw
    (disjoint_new hv.accessible f1) dUw
  refine ⟨w, U, m3, ?_, cU, hV, hω, dUw.symm, ?_, ?_⟩
  · rw [eigvalsMem, ok_bind e1, hUc, ok_bind e2]
    split at e3
    · rw [throw_bind e3, if_pos (by assumption)]
    · rw [ok_bind e3, if_neg (by assumption), SM.pure_apply]
  · rintro a (ha | ha)
    · exact x1.free' f2 a ha
    · exact f1 a ha
  · refine ((s1.trans s2).trans s3).mono ?_
    rintro a ((h | h) | (h | h)) <;> simp [h]

theorem advanceXMem_ok (hE : EnvOk E la) (hm : Finite m) {N B : ℕ} (hN : 0 < N) (hB : 0 < B)
    {x dx ul : MView} {X DX : Mat N B} {UL : Mat B B} {op : HostOp} {S : Mat N N} (hop : Applies op S)
    (cx : ColMajor x) (cdx : ColMajor dx) (cul : ColMajor ul) (hx : Holds m x X) (hdx : Holds m dx DX)
    (hul : Holds m ul UL) (t : ℝ) :
    NewMat (advanceXMem E t x dx ul op) m (advanceX la t X DX UL S) := by
  obtain ⟨n, m1, e1, ⟨cn, hn⟩, f1, s1⟩ := copyNew_ok hE hm hN cx hx.1 hx.2.1 hx
  have x1 := Ext.new hm f1 s1 (cells_finite _)
  obtain ⟨_, m2, e2, h2, s2⟩ := C44_add E.sch (t : ℂ) 1 cdx cn (hdx.ext0 x1) hn
    (.inl (disjoint_new hdx.accessible f1))
  have x2 := x1.step s2 (cells_finite _) (fun a ha => .inr (f1 a ha))
  obtain ⟨sx, m3, e3, ⟨csx, hsx⟩, f3, s3⟩ := applyOp_ok hE x2.fin hN hop cn h2
  have x3' := Ext.new x2.fin f3 s3 (cells_finite _)
  have x3 := x2.trans x3'
  have key := loewdinMem_ok hE x3.fin hN hB cn csx (h2.ext0 x3') hsx
  have res : advanceX la t X DX UL S =
      (loewdin la ((1 : ℂ) • X + (t : ℂ) • DX) (S * ((1 : ℂ) • X + (t : ℂ) • DX))).bind
        fun x2 => .ok (transformM x2 UL) := rfl
  rw [res]
  cases hl : loewdin la ((1 : ℂ) • X + (t : ℂ) • DX) (S * ((1 : ℂ) • X + (t : ℂ) • DX)) with
  | ok Y =>
    rw [hl] at key
    obtain ⟨y, m4, e4, ⟨cy, hy⟩, f4, s4⟩ := key
    have x4' := Ext.new x3.fin f4 s4 (cells_finite _)
    have x4 := x3.trans x4'
    obtain ⟨z, m5, e5, ⟨cz, hz⟩, f5, s5⟩ := transformNew_ok hE x4.fin hN cy cul hy (hul.ext0 x4)
    have x5 := x4.trans (Ext.new x4.fin f5 s5 (cells_finite _))
    refine newMat_scope (v := z) (m1 := m5) ?_ x5 cz hz (x4.free' f5)
    rw [ok_bind e1, ok_bind e2, ok_bind e3, ok_bind e4, e5]
  | throw e =>
    rw [hl] at key
    refine withScope_throw (m1 := m3) ?_ x3
    rw [ok_bind e1, ok_bind e2, ok_bind e3, throw_bind key]
  | ub => rw [hl] at key; exact key.elim
  | abort => rw [hl] at key; exact key.elim

theorem geodesicMem_ok (hE : EnvOk E la) (hm : Finite m) {N B : ℕ} (hN : 0 < N) (hB : 0 < B)
    {x eta zx zeta : MView} {X ZX : Mat N B} {ETA ZETA : Mat B B} {op : HostOp} {S : Mat N N}
    (hop : Applies op S) (cx : ColMajor x) (czx : ColMajor zx) (czeta : ColMajor zeta) (hx : Holds m x X)
    (heta : Holds m eta ETA) (hzx : Holds m zx ZX) (hzeta : Holds m zeta ZETA) (t : ℝ) :
    Refines (geodesicMem E x eta zx zeta op t) m (geodesicUs la X ETA ZX ZETA S t)
      (fun g => vecCells g.ek B ∪ cells g.ul ∪ cells g.X) HoldsGeo := by
  obtain ⟨n, m1, e1, ⟨cn, hn⟩, f1, s1⟩ := advanceEtaMem_ok hE hm hB czeta heta hzeta t
  have x1 := Ext.new hm f1 s1 (cells_finite _)
  obtain ⟨ek, ul, m2, e2, cul, hul, hek, d2, f2, s2⟩ := eigvalsMem_run hE x1.fin hB cn hn
  have x2' := Ext.new x1.fin f2 s2 ((vecCells_finite _ _).union (cells_finite _))
  have x2 := x1.trans x2'
  unfold geodesicMem
  by_cases hi : (la.heevd (advanceEta t ETA ZETA)).2 = 0
  · simp only [hi, ne_eq, not_true_eq_false, if_false] at e2
    have key := advanceXMem_ok hE x2.fin hN hB hop cx czx cul (hx.ext0 x2) (hzx.ext0 x2) hul t
    have res : geodesicUs la X ETA ZX ZETA S t =
        (advanceX la t X ZX (la.heevd (advanceEta t ETA ZETA)).1.2 S).bind fun y =>
          .ok ⟨(la.heevd (advanceEta t ETA ZETA)).1.1, (la.heevd (advanceEta t ETA ZETA)).1.2, y⟩ := by
      simp only [geodesicUs, Lapack.eigh, hi, ne_eq, not_true_eq_false, if_false]
      rfl
    rw [res]
    cases ha : advanceX la t X ZX (la.heevd (advanceEta t ETA ZETA)).1.2 S with
    | ok Y =>
      rw [ha] at key
      obtain ⟨y, m3, e3, ⟨cy, hy⟩, f3, s3⟩ := key
      have x3' := Ext.new x2.fin f3 s3 (cells_finite _)
      have x3 := x2.trans x3'
      obtain ⟨m', e', k, s⟩ := withScope_ok (own := GeoMem.mem) (p := do
        let etaNext ← advanceEtaMem E t eta zeta
        let ekUl ← eigvalsMem E etaNext
        let xNext ← advanceXMem E t x zx ekUl.2 op
        pure ⟨ekUl.1, ekUl.2, xNext⟩) (m := m) (m1 := m3) (x := ⟨ek, ul, y⟩) (S := ∅) (by
          rw [ok_bind e1, ok_bind e2, ok_bind e3, SM.pure_apply]) x3
      simp only [GeoMem.mem, mem_eq_cells, vecMem_eq, hul.2.1, Set.union_empty] at k s
      refine ⟨⟨ek, ul, y⟩, m', e', ⟨?_, cul, ?_, cy, ?_, d2, ?_, ?_⟩, ?_, s⟩
      · intro i
        have : ek + i ∈ vecCells ek B := ⟨by omega, by omega⟩
        exact (k _ (.inl (.inl (.inl this)))).trans (hek.ext0 x3' i)
      · have h := hul.ext0 x3'
        refine ⟨h.1, h.2.1, fun i j => ?_⟩
        rw [k _ (.inl (.inl (.inr (mem_cells (h.1 ▸ i.2) (h.2.1 ▸ j.2)))))]
        exact h.2.2 i j
      · refine ⟨hy.1, hy.2.1, fun i j => ?_⟩
        rw [k _ (.inl (.inr (mem_cells (hy.1 ▸ i.2) (hy.2.1 ▸ j.2))))]
        exact hy.2.2 i j
      · exact disjoint_new hek.some f3
      · exact disjoint_new hul.accessible f3
      · rintro a ((h | h) | h)
        · exact x1.free' f2 a (.inl h)
        · exact x1.free' f2 a (.inr h)
        · exact x2.free' f3 a h
    | throw e =>
      rw [ha] at key
      refine withScope_throw (m1 := m2) ?_ x2
      rw [ok_bind e1, ok_bind e2, throw_bind key]
    | ub => rw [ha] at key; exact key.elim
    | abort => rw [ha] at key; exact key.elim
  · simp only [hi, ne_eq, not_false_eq_true, if_true] at e2
    have res : geodesicUs la X ETA ZX ZETA S t = .throw .runtimeError := by
      simp only [geodesicUs, Lapack.eigh, hi, ne_eq, not_false_eq_true, if_true]
      rfl
    rw [res]
    refine withScope_throw (m1 := m2) ?_ x2
    rw [ok_bind e1, throw_bind e2]

/-! ## Directions -/

theorem lmultMem_ok (hE : EnvOk E la) (hm : Finite m) {N B : ℕ} (hN : 0 < N) (hB : 0 < B) {sx hx : MView}
    {SX HX : Mat N B} {op : HostOp} {P : Mat N N} (hop : Applies op P) (csx : ColMajor sx) (chx : ColMajor hx)
    (hsx : Holds m sx SX) (hhx : Holds m hx HX) :
    NewMat (lmultMem E sx hx op) m (.ok (lmult la SX HX P)) := by
  obtain ⟨psx, m1, e1, ⟨c1, h1⟩, f1, s1⟩ := applyOp_ok hE hm hN hop csx hsx
  have x1 := Ext.new hm f1 s1 (cells_finite _)
  obtain ⟨xkx, m2, e2, ⟨c2, h2⟩, f2, s2⟩ := innerNew_ok hE x1.fin hB csx c1 (hsx.ext0 x1) h1 1
  have x2 := x1.trans (Ext.new x1.fin f2 s2 (cells_finite _))
  obtain ⟨phx, m3, e3, ⟨c3, h3⟩, f3, s3⟩ := applyOp_ok hE x2.fin hN hop chx (hhx.ext0 x2)
  have x3' := Ext.new x2.fin f3 s3 (cells_finite _)
  have x3 := x2.trans x3'
  obtain ⟨xkhx, m4, e4, ⟨c4, h4⟩, f4, s4⟩ := innerNew_ok hE x3.fin hB csx c3 (hsx.ext0 x3) h3 1
  have x4' := Ext.new x3.fin f4 s4 (cells_finite _)
  have x4 := x3.trans x4'
  obtain ⟨m5, e5, h5, s5⟩ := solveSymHost_run hE c2 c4 ((h2.ext0 x3').ext0 x4') h4
    (disjoint_new (h2.ext0 x3').accessible f4)
  have x5 := x4.step s5 ((cells_finite _).union (cells_finite _)) (by
    rintro a (ha | ha)
    · exact .inr (x1.free' f2 a ha)
    · exact .inr (x3.free' f4 a ha))
  obtain ⟨z, m6, e6, ⟨cz, hz⟩, f6, s6⟩ := transformNew_ok hE x5.fin hN csx c4 (hsx.ext0 x5) h5
  have x6 := x5.trans (Ext.new x5.fin f6 s6 (cells_finite _))
  refine newMat_scope (v := z) (m1 := m6) ?_ x6 cz hz (x5.free' f6)
  rw [ok_bind e1, ok_bind e2, ok_bind e3, ok_bind e4, ok_bind e5, e6]

theorem gradxMem_ok (hE : EnvOk E la) (hm : Finite m) {N B : ℕ} (hN : 0 < N) {x hx xll : MView} {fn : ℕ}
    {HX XLL : Mat N B} {f : Fin B → ℝ} (cx : ColMajor x) (hxr : x.rows = N) (hxc : x.cols = B)
    (chx : ColMajor hx) (cll : ColMajor xll) (hhx : Holds m hx HX) (hf : HoldsReal m fn f)
    (hll : Holds m xll XLL) (wk : ℝ) :
    NewMat (gradxMem E x hx fn xll wk) m (.ok (gradx HX f XLL wk)) := by
  obtain ⟨g, m1, e1, cg, hgr, hgc, hg, f1, s1⟩ := empty_new hE hm hxr hxc cx.single hN
  have x1 := Ext.new hm f1 s1 (cells_finite _)
  obtain ⟨_, m2, e2, h2, s2⟩ := C45_scale_columns E.sch (wk : ℂ) chx.unit cg.inj hgr hgc (hhx.ext0 x1)
    (hf.ext0 x1) (.inl (disjoint_new hhx.accessible f1)) hg
    (fun j => Set.disjoint_left.1 (disjoint_new hf.some f1) ⟨by omega, by omega⟩)
  have dll := disjoint_new hll.accessible f1
  obtain ⟨_, m3, e3, h3, s3⟩ := C44_add E.sch (-(wk : ℂ)) 1 cll cg ((hll.ext0 x1).frame s2 dll) h2 (.inl dll)
  refine ⟨g, m3, ?_, ⟨cg, h3⟩, f1, by simpa using (s1.trans s2).trans s3⟩
  rw [gradxMem, ok_bind e1, ok_bind e2, ok_bind e3, SM.pure_apply]

theorem precondgxMem_ok (hE : EnvOk E la) (hm : Finite m) {N B : ℕ} (hN : 0 < N) {x hx xll : MView}
    {HX XLL : Mat N B} {op : HostOp} {P : Mat N N} (hop : Applies op P) (cx : ColMajor x) (hxr : x.rows = N)
    (hxc : x.cols = B) (chx : ColMajor hx) (cll : ColMajor xll) (hhx : Holds m hx HX) (hll : Holds m xll XLL) :
    NewMat (precondgxMem E x hx op xll) m (.ok (precondgxUs HX P XLL)) := by
  obtain ⟨d, m1, e1, cd, hd, f1, s1⟩ := zeros_new hE hm hxr hxc cx.single hN
  have x1 := Ext.new hm f1 s1 (cells_finite _)
  obtain ⟨_, m2, e2, h2, s2⟩ := C44_add E.sch (-1 : ℂ) 0 chx cd (hhx.ext0 x1) hd
    (.inl (disjoint_new hhx.accessible f1))
  have x2 := x1.step s2 (cells_finite _) (fun a ha => .inr (f1 a ha))
  obtain ⟨_, m3, e3, h3, s3⟩ := C44_add E.sch (1 : ℂ) 1 cll cd (hll.ext0 x2) h2
    (.inl (disjoint_new hll.accessible f1))
  have x3 := x2.step s3 (cells_finite _) (fun a ha => .inr (f1 a ha))
  obtain ⟨y, m4, e4, ⟨cy, hy⟩, f4, s4⟩ := applyOp_ok hE x3.fin hN hop cd h3
  have x4 := x3.trans (Ext.new x3.fin f4 s4 (cells_finite _))
  refine newMat_scope (v := y) (m1 := m4) ?_ x4 cy hy (x3.free' f4)
  rw [ok_bind e1, ok_bind e2, ok_bind e3, e4]

theorem rotateetaMem_ok (hE : EnvOk E la) (hm : Finite m) {B : ℕ} (hB : 0 < B) {eta u : MView}
    {ETA U : Mat B B} (ce : ColMajor eta) (cu : ColMajor u) (he : Holds m eta ETA) (hu : Holds m u U) :
    NewMat (rotateetaMem E eta u) m (.ok (rotateeta ETA U)) := by
  obtain ⟨y, m1, e1, ⟨c1, h1⟩, f1, s1⟩ := transformNew_ok hE hm hB ce cu he hu
  have x1 := Ext.new hm f1 s1 (cells_finite _)
  obtain ⟨z, m2, e2, ⟨c2, h2⟩, f2, s2⟩ := innerNew_ok hE x1.fin hB cu c1 (hu.ext0 x1) h1 1
  have x2 := x1.trans (Ext.new x1.fin f2 s2 (cells_finite _))
  refine newMat_scope (v := z) (m1 := m2) ?_ x2 c2 h2 (x1.free' f2)
  rw [ok_bind e1, e2]

theorem conjugatexMem_ok (hE : EnvOk E la) (hm : Finite m) {N B : ℕ} (hN : 0 < N) (hB : 0 < B)
    {zx sx : MView} {ZX SX : Mat N B} (cz : ColMajor zx) (cs : ColMajor sx) (hz : Holds m zx ZX)
    (hs : Holds m sx SX) : Computes (conjugatexMem E zx sx) m zx (conjugatex la ZX SX) := by
  obtain ⟨p, m1, e1, ⟨c1, h1⟩, f1, s1⟩ := innerNew_ok hE hm hB cs cz hs hz 1
  have x1 := Ext.new hm f1 s1 (cells_finite _)
  obtain ⟨q, m2, e2, ⟨c2, h2⟩, f2, s2⟩ := innerNew_ok hE x1.fin hB cs cs (hs.ext0 x1) (hs.ext0 x1) 1
  have x2' := Ext.new x1.fin f2 s2 (cells_finite _)
  have x2 := x1.trans x2'
  obtain ⟨m3, e3, h3, s3⟩ := solveSymHost_run hE c2 c1 h2 (h1.ext0 x2') (disjoint_new h1.accessible f2).symm
  have x3 := x2.step s3 ((cells_finite _).union (cells_finite _)) (by
    rintro a (ha | ha)
    · exact .inr (x1.free' f2 a ha)
    · exact .inr (f1 a ha))
  obtain ⟨y, m4, e4, ⟨c4, h4⟩, f4, s4⟩ := transformNew_ok hE x3.fin hN cs c1 (hs.ext0 x3) h3
  have x4 := x3.trans (Ext.new x3.fin f4 s4 (cells_finite _))
  obtain ⟨_, m5, e5, h5, s5⟩ := C44_add E.sch (-1 : ℂ) 1 c4 cz h4 (hz.ext0 x4)
    (.inl (disjoint_new (hz.ext0 x3).accessible f4).symm)
  have x5 : Ext (cells zx) m m5 := Ext.step (T := cells zx)
    ⟨x4.fin, fun a x _ h => x4.keep a x (by simp) h⟩ s5 (cells_finite _) (fun a ha => .inl ha)
  obtain ⟨m', e', k, s⟩ := withScope_ok (own := fun _ : Unit => (∅ : Set ℕ)) (p := do
      let sxzxp ← innerNew E sx zx 1
      let sx2 ← innerNew E sx sx 1
      solveSymHost E.lib sx2 sxzxp
      let corr ← transformNew E sx sxzxp
      addK E.sch zx corr (-1) 1) (m := m) (by
    rw [ok_bind e1, ok_bind e2, ok_bind e3, ok_bind e4, e5]) x5
  refine ⟨_, m', e', ⟨h5.1, h5.2.1, fun i j => ?_⟩, by simpa using s⟩
  rw [k _ (.inr (by rw [hz.2.2 i j]; simp))]
  exact h5.2.2 i j

/-! ## Loops -/

/-- a loop over the diagonal -/
theorem diag_loop (sch : Sched) {n : ℕ} {g : MView} {G : Mat n n} (hg : Holds m g G) (cg : ColMajor g)
    (val : ℕ → ℂ) (body : ℕ → MemM ℂ Unit)
    (hb : ∀ i, i < n → ∀ m' : Mem ℂ, SameOutside (cells g) m m' →
      m' (g.data + i * g.s0 + i * g.s1) = m (g.data + i * g.s0 + i * g.s1) →
      body i m' = (.ok (), fun a => if a = g.data + i * g.s0 + i * g.s1 then some (val i) else m' a)) :
    Computes (forEach (sch.order (List.range n)) body) m g (fun i j : Fin n => if i = j then val i else G i j) := by
  obtain ⟨gr, gc, hv⟩ := id hg
  have inj := cg.inj
  have hl : ∀ i, i ∈ sch.order (List.range n) ↔ i < n := fun i => (sch.perm _).mem_iff.trans List.mem_range
  obtain ⟨m', e, h1, h2⟩ := forEach_writes (fun i => g.data + i * g.s0 + i * g.s1) val body m
    (sch.order (List.range n)) m ((Sched.nodup_order sch).2 List.nodup_range)
    (by
      intro x hx y hy h
      have hx := (hl x).1 hx
      have hy := (hl y).1 hy
      exact (inj x x y y (gr ▸ hx) (gc ▸ hx) (gr ▸ hy) (gc ▸ hy) h).1)
    (by
      intro i hi m1 hm
      have hi := (hl i).1 hi
      refine hb i hi m1 (fun a ha => hm a ?_) (hm _ ?_)
      · intro y hy _ e
        have hy := (hl y).1 hy
        exact ha ⟨y, y, gr ▸ hy, gc ▸ hy, e⟩
      · intro y hy hne e
        have hy := (hl y).1 hy
        exact hne (inj i i y y (gr ▸ hi) (gc ▸ hi) (gr ▸ hy) (gc ▸ hy) e).1.symm)
    (fun _ => rfl)
  refine ⟨_, m', e, ⟨gr, gc, fun i j => ?_⟩, fun a ha => h2 a fun i hi e => ha ?_⟩
  · by_cases h : i = j
    · subst h
      simp only [if_true]
      exact h1 i ((hl _).2 i.2)
    · simp only [if_neg h]
      rw [← hv i j]
      refine h2 _ fun x hx e => h ?_
      have hx := (hl x).1 hx
      obtain ⟨p, q⟩ := inj i j x x (gr ▸ i.2) (gc ▸ j.2) (gr ▸ hx) (gc ▸ hx) e
      exact Fin.ext (p.trans q.symm)
  · have hi := (hl i).1 hi
    exact ⟨i, i, gr ▸ hi, gc ▸ hi, e⟩

/-- a write of the value that is there changes nothing -/
theorem write_same {m : Mem ℂ} {a : ℕ} {x : ℂ} (h : m a = some x) :
    (fun b => if b = a then some x else m b) = m := by
  funext b
  split
  · next e => rw [e, h]
  · rfl

theorem deltaEtaMem_ok (hE : EnvOk E la) (hm : Finite m) {n : ℕ} (hn : 0 < n) {hij : MView} {ek : ℕ}
    {H : Mat n n} {e : Fin n → ℝ} (ch : ColMajor hij) (hH : Holds m hij H) (he : HoldsReal m ek e)
    (kappa wk : ℝ) : NewMat (deltaEtaMem E kappa hij ek hij.rows wk) m (.ok (deltaEta kappa H e wk)) := by
  obtain ⟨d, m1, e1, cd, hdr, hdc, hd, f1, s1⟩ := empty_new hE hm hH.1 hH.2.1 ch.single hn
  have x1 := Ext.new hm f1 s1 (cells_finite _)
  obtain ⟨⟨_, m2, e2, h2, s2⟩, _⟩ := C45_scale E.sch ((kappa / wk : ℝ) : ℂ) ch.unit cd.inj hdr hdc (hH.ext0 x1)
    (.inl (disjoint_new hH.accessible f1)) hd
  have de := disjoint_new he.some f1
  have he2 := (he.ext0 x1).frame s2 de
  obtain ⟨_, m3, e3, h3, s3⟩ := diag_loop E.sch h2 cd
    (fun i => if h : i < n then deltaEta kappa H e wk ⟨i, h⟩ ⟨i, h⟩ else 0)
    (fun i => do
      let x ← load (d.addr i i)
      let e ← load (ek + i)
      store (d.addr i i) (x - ((kappa * e.re : ℝ) : ℂ))) (by
    intro i hi m' so hk
    have l1 : m' (d.addr i i) = some (((kappa / wk : ℝ) : ℂ) * H ⟨i, hi⟩ ⟨i, hi⟩) := by
      rw [addr_eq, hk]
      exact h2.2.2 ⟨i, hi⟩ ⟨i, hi⟩
    have l2 : m' (ek + i) = some ((e ⟨i, hi⟩ : ℝ) : ℂ) := he2.frame so de ⟨i, hi⟩
    rw [load_bind l1, load_bind l2, store_ok l1, addr_eq]
    simp [hi, deltaEta])
  refine ⟨d, m3, ?_, ⟨cd, ?_⟩, f1, by simpa using (s1.trans s2).trans s3⟩
  · rw [deltaEtaMem, ok_bind e1, ok_bind e2, hH.1, deltaEtaLoop, ok_bind e3, SM.pure_apply]
  · have : deltaEta kappa H e wk = fun i j : Fin n => if i = j then
        (if h : (i : ℕ) < n then deltaEta kappa H e wk ⟨i, h⟩ ⟨i, h⟩ else 0)
        else ((kappa / wk : ℝ) : ℂ) * H i j := by
      ext i j
      by_cases h : i = j
      · subst h; simp
      · simp [deltaEta, h]
    rw [this]
    exact h3

theorem gEtaMem_ok (hE : EnvOk E la) (hm : Finite m) {n : ℕ} (hn : 0 < n) {hij : MView} {ek fn : ℕ}
    {H : Mat n n} {e f : Fin n → ℝ} (ch : ColMajor hij) (hH : Holds m hij H) (he : HoldsReal m ek e)
    (hf : HoldsReal m fn f) (sf : SmearFns ℝ) (T mu wk dmu dF mo : ℝ) :
    NewMat (gEtaMem E sf T hij mu wk ek fn dmu dF mo) m (.ok (gEta sf T H mu wk e f dmu dF mo)) := by
  obtain ⟨g, m1, e1, cg, hg, f1, s1⟩ := zeros_new hE hm hH.1 hH.2.1 ch.single hn
  have x1 := Ext.new hm f1 s1 (cells_finite _)
  have dH := disjoint_new hH.accessible f1
  have de := disjoint_new he.some f1
  have df := disjoint_new hf.some f1
  -- the three arguments in a memory that differs only in the result
  have arg : ∀ m', SameOutside (cells g) m1 m' →
      Holds m' hij H ∧ HoldsReal m' ek e ∧ HoldsReal m' fn f := fun m' s =>
    ⟨(hH.ext0 x1).frame s dH, (he.ext0 x1).frame s de, (hf.ext0 x1).frame s df⟩
  let dl : Fin n → ℝ := fun i => sf.delta ((e i - mu) / (kB * T)) mo
  let g1 : Fin n → ℂ := fun i => ((-1 / (kB * T) : ℝ) : ℂ) * (H i i - ((wk * e i : ℝ) : ℂ)) * (dl i : ℂ)
  have step1 : Computes (gEtaLoop1 E sf (kB * T) g hij n mu wk ek mo) m1 g
      (fun i j : Fin n => if i = j then g1 i else 0) := by
    unfold gEtaLoop1
    refine Computes.congr (diag_loop E.sch hg cg (fun i => if h : i < n then g1 ⟨i, h⟩ else 0) _ ?_)
      (fun i j => by simp)
    intro i hi m' so hk
    obtain ⟨a1, a2, a3⟩ := arg m' so
    have l1 : m' (ek + i) = some ((e ⟨i, hi⟩ : ℝ) : ℂ) := a2 ⟨i, hi⟩
    have l2 : m' (hij.addr i i) = some (H ⟨i, hi⟩ ⟨i, hi⟩) := by rw [addr_eq]; exact a1.2.2 ⟨i, hi⟩ ⟨i, hi⟩
    have l3 : m' (g.addr i i) = some 0 := by rw [addr_eq, hk]; exact hg.2.2 ⟨i, hi⟩ ⟨i, hi⟩
    rw [load_bind l1, load_bind l2, store_ok l3, addr_eq]
    simp [hi, g1, dl]
  obtain ⟨_, m2, e2, h2, s2⟩ := step1
  let G2 : Mat n n := fun i j => if i = j then
    (if |dmu| < 1 / 10 ^ 12 then g1 i else g1 i + ((wk * dl i / dmu * (dF / (kB * T)) : ℝ) : ℂ)) else 0
  have step2 : Computes (gEtaLoop2 E sf (kB * T) g n mu wk ek dmu dF mo) m2 g G2 := by
    unfold gEtaLoop2
    by_cases hd : |dmu| < 1 / 10 ^ 12
    · rw [if_pos hd]
      refine ⟨(), m2, rfl, ?_, fun _ _ => rfl⟩
      have : G2 = fun i j : Fin n => if i = j then g1 i else 0 := by
        ext i j
        simp only [G2, if_pos hd]
      rw [this]
      exact h2
    · rw [if_neg hd]
      refine Computes.congr (diag_loop E.sch h2 cg (fun i => if h : i < n then
        g1 ⟨i, h⟩ + ((wk * dl ⟨i, h⟩ / dmu * (dF / (kB * T)) : ℝ) : ℂ) else 0) _ ?_) ?_
      · intro i hi m' so hk
        obtain ⟨a1, a2, a3⟩ := arg m' (by simpa using s2.trans so)
        have l1 : m' (ek + i) = some ((e ⟨i, hi⟩ : ℝ) : ℂ) := a2 ⟨i, hi⟩
        have l2 : m' (g.addr i i) = some (g1 ⟨i, hi⟩) := by
          rw [addr_eq, hk]
          have := h2.2.2 ⟨i, hi⟩ ⟨i, hi⟩
          simpa using this
        rw [load_bind l1, load_bind l2, store_ok l2, addr_eq]
        simp [hi, dl]
      · intro i j
        by_cases h : i = j
        · subst h
          simp only [G2, if_true, if_neg hd, i.2, dif_pos, Fin.eta]
        · simp [G2, h]
  obtain ⟨_, m3, e3, h3, s3⟩ := step2
  have hgr := h3.1
  have hgc := h3.2.1
  have step3 : Computes (gEtaLoop3 E g hij n ek fn) m3 g (gEta sf T H mu wk e f dmu dF mo) := by
    unfold gEtaLoop3
    subst hgr
    have base := elementwise (m := m3) (dst := g) (src := g) E.sch cg.inj (.inr rfl) rfl rfl
      (fun p => if h : p.1 < g.rows ∧ p.2 < g.rows then
        gEta sf T H mu wk e f dmu dF mo ⟨p.1, h.1⟩ ⟨p.2, h.2⟩ else 0)
      (fun p => if p.1 = p.2 then pure ()
        else do
          let ej ← load (ek + p.2)
          let ei ← load (ek + p.1)
          if |ej.re - ei.re| < 1 / 10 ^ 10 then pure ()
          else do
            let fj ← load (fn + p.2)
            let fi ← load (fn + p.1)
            let x ← load (g.addr p.1 p.2)
            let h ← load (hij.addr p.1 p.2)
            store (g.addr p.1 p.2) (x + (((fj.re - fi.re) / (ej.re - ei.re) : ℝ) : ℂ) * h)) (by
      rintro ⟨i, j⟩ hi hj m' so hk _
      have hj : j < g.rows := hgc ▸ hj
      simp only at hi hj hk ⊢
      obtain ⟨a1, a2, a3⟩ := arg m' (by simpa using (s2.trans s3).trans so)
      have lg : m' (g.data + i * g.s0 + j * g.s1) = some (G2 ⟨i, hi⟩ ⟨j, hj⟩) := by
        rw [hk]; exact h3.2.2 ⟨i, hi⟩ ⟨j, hj⟩
      rw [dif_pos ⟨hi, hj⟩]
      by_cases hij' : i = j
      · subst hij'
        rw [if_pos rfl, SM.pure_apply]
        congr 1
        refine (write_same ?_).symm
        rw [lg]
        simp only [G2, gEta, if_true, g1, dl]
      · rw [if_neg hij']
        have l1 : m' (ek + j) = some ((e ⟨j, hj⟩ : ℝ) : ℂ) := a2 ⟨j, hj⟩
        have l2 : m' (ek + i) = some ((e ⟨i, hi⟩ : ℝ) : ℂ) := a2 ⟨i, hi⟩
        rw [load_bind l1, load_bind l2]
        have hne : (⟨i, hi⟩ : Fin g.rows) ≠ ⟨j, hj⟩ := by simpa using hij'
        simp only [Complex.ofReal_re]
        by_cases hs : |e ⟨j, hj⟩ - e ⟨i, hi⟩| < 1 / 10 ^ 10
        · rw [if_pos hs, SM.pure_apply]
          congr 1
          refine (write_same ?_).symm
          rw [lg]
          simp only [G2, gEta, if_neg hne, if_pos hs]
        · rw [if_neg hs]
          have l3 : m' (fn + j) = some ((f ⟨j, hj⟩ : ℝ) : ℂ) := a3 ⟨j, hj⟩
          have l4 : m' (fn + i) = some ((f ⟨i, hi⟩ : ℝ) : ℂ) := a3 ⟨i, hi⟩
          have l5 : m' (hij.addr i j) = some (H ⟨i, hi⟩ ⟨j, hj⟩) := by
            rw [addr_eq]; exact a1.2.2 ⟨i, hi⟩ ⟨j, hj⟩
          rw [← addr_eq] at lg
          rw [load_bind l3, load_bind l4, load_bind lg, load_bind l5, store_ok lg, addr_eq]
          simp only [G2, gEta, if_neg hne, if_neg hs, zero_add, Complex.ofReal_re])
    rw [hgc] at base
    exact base.congr (fun i j => by simp)
  obtain ⟨_, m4, e4, h4, s4⟩ := step3
  refine ⟨g, m4, ?_, ⟨cg, h4⟩, f1, by simpa using ((s1.trans s2).trans s3).trans s4⟩
  rw [gEtaMem, ok_bind e1]
  simp only [hH.1]
  rw [ok_bind e2, ok_bind e3, ok_bind e4, SM.pure_apply]

theorem list_sum_range {n : ℕ} (g : ℕ → ℂ) : ((List.range n).map g).sum = ∑ j : Fin n, g j := by
  rw [← Finset.sum_range]
  rfl

/-- the inner loop of `innerh_tr` adds up one row -/
theorem row_loop {t : ℕ} (g : ℕ → ℂ) (body : ℕ → MemM ℂ Unit) : ∀ (l : List ℕ) (s : ℂ) (m : Mem ℂ),
    m t = some s →
    (∀ j ∈ l, ∀ (m' : Mem ℂ) (u : ℂ), (∀ a, a ≠ t → m' a = m a) → m' t = some u →
      body j m' = (.ok (), fun a => if a = t then some (u + g j) else m' a)) →
    forEach l body m = (.ok (), fun a => if a = t then some (s + (l.map g).sum) else m a) := by
  intro l
  induction l with
  | nil =>
    intro s m h _
    simp only [forEach, SM.pure_apply, List.map_nil, List.sum_nil, add_zero]
    rw [write_same h]
  | cons j l ih =>
    intro s m h hb
    rw [forEach, ok_bind (hb j (by simp) m s (fun _ _ => rfl) h),
      ih (s + g j) _ (by simp) ?_]
    · congr 1
      funext a
      by_cases e : a = t
      · simp [e, add_assoc]
      · simp [e]
    · intro k hk m' u hm hu
      refine hb k (by simp [hk]) m' u (fun a ha => ?_) hu
      rw [hm a ha, if_neg ha]

theorem innerhTrMem_ok (hE : EnvOk E la) (hm : Finite m) {r c : ℕ} {x y : MView} {X Y : Mat r c}
    (hx : Holds m x X) (hy : Holds m y Y) : innerhTrMem E x y m = (.ok (innerhTr X Y), m) := by
  obtain ⟨t, m1, e1, h1, f1, s1⟩ := vec_ok hE hm x.rows
  have x1 := Ext.new hm f1 s1 (vecCells_finite _ _)
  have dx := disjoint_new hx.accessible f1
  have dy := disjoint_new hy.accessible f1
  obtain ⟨rfl, rfl, _⟩ := id hx
  have hl : ∀ i, i ∈ E.sch.order (List.range x.rows) ↔ i < x.rows :=
    fun i => (E.sch.perm _).mem_iff.trans List.mem_range
  obtain ⟨m2, e2, h2, s2⟩ := forEach_writes (fun i => t + i)
    (fun i => ∑ j : Fin x.cols, ext X i j * star (ext Y i j))
    (fun i => forEach (List.range x.cols) fun j => do
      let s ← load (t + i)
      let a ← load (x.addr i j)
      let b ← load (y.addr i j)
      store (t + i) (s + a * star b)) m1 (E.sch.order (List.range x.rows)) m1
    ((Sched.nodup_order E.sch).2 List.nodup_range) (by intro a _ b _ h; simpa using h) (by
      intro i hi m' hk
      have hi := (hl i).1 hi
      have kx : ∀ a, a ∉ vecCells t x.rows → m' a = m1 a := fun a ha => hk a fun k hk' _ e =>
        ha ⟨by omega, by have := (hl k).1 hk'; omega⟩
      have h0 : m' (t + i) = some 0 := by
        rw [hk _ fun k _ hne e => by omega]; exact h1 ⟨i, hi⟩
      have hx' := (hx.ext0 x1).frame kx dx
      have hy' := (hy.ext0 x1).frame kx dy
      have ti : t + i ∈ vecCells t x.rows := ⟨by omega, by omega⟩
      rw [row_loop (fun j => ext X i j * star (ext Y i j)) _ (List.range x.cols) 0 m' h0]
      · rw [list_sum_range, zero_add]
      · intro j hj m'' u hm'' hu
        have hj := List.mem_range.1 hj
        have l1 : m'' (x.addr i j) = some (ext X i j) := by
          rw [hm'', addr_eq]
          · exact hx'.ext_at hi hj
          · intro e
            rw [addr_eq] at e
            exact Set.disjoint_left.1 dx (mem_cells hi hj) (e ▸ ti)
        have l2 : m'' (y.addr i j) = some (ext Y i j) := by
          rw [hm'', addr_eq]
          · exact hy'.ext_at (hy.1 ▸ hi) (hy.2.1 ▸ hj)
          · intro e
            rw [addr_eq] at e
            exact Set.disjoint_left.1 dy (mem_cells (hy.1 ▸ hi) (hy.2.1 ▸ hj)) (e ▸ ti)
        rw [load_bind hu, load_bind l1, load_bind l2, store_ok hu]) (fun _ => rfl)
  have so : SameOutside (vecCells t x.rows) m1 m2 := fun a ha => s2 a fun k hk e =>
    ha ⟨by omega, by have := (hl k).1 hk; omega⟩
  have x2 := x1.step so (vecCells_finite _ _) (fun a ha => .inr (f1 a ha))
  have e3 := sumM_ok (m := m2) (f := fun i => load (t + i))
    (g := fun i => ∑ j : Fin x.cols, ext X i j * star (ext Y i j)) x.rows
    (fun i hi => load_ok (h2 i ((hl i).2 hi)))
  obtain ⟨m', e', k, s⟩ := withScope_ok (own := fun _ : ℂ => (∅ : Set ℕ)) (p := do
      let tmp ← E.vec x.rows
      forEach (E.sch.order (List.range x.rows)) fun i =>
        forEach (List.range x.cols) fun j => do
          let s ← load (tmp + i)
          let a ← load (x.addr i j)
          let b ← load (y.addr i j)
          store (tmp + i) (s + a * star b)
      sumM x.rows fun i => load (tmp + i)) (m := m) (by rw [ok_bind e1, ok_bind e2, e3]) x2
  have : m' = m := funext fun a => s a (by simp)
  simp only [innerhTrMem, rowSums]
  rw [e', this, sumL_eq]
  simp [innerhTr]

/-! ## Whole directions -/

theorem Spec.Holds.scope {r c : ℕ} {S : Set ℕ} {m m' m1 : Mem ℂ} {v : MView} {A : Mat r c}
    (k : ∀ a, a ∈ S ∨ m a ≠ none → m' a = m1 a) (h : Holds m1 v A) (hs : cells v ⊆ S) : Holds m' v A := by
  refine ⟨h.1, h.2.1, fun i j => ?_⟩
  rw [k _ (.inl (hs (mem_cells (h.1 ▸ i.2) (h.2.1 ▸ j.2))))]
  exact h.2.2 i j

/-- memory of the common part of a direction -/
def SpcMem.own (s : SpcMem) : Set ℕ := cells s.sx ∪ cells s.gx ∪ cells s.dx ∪ cells s.geta ∪ cells s.deta

structure HoldsSpc {N B : ℕ} (m : Mem ℂ) (s : SpcMem) (SX : Mat N B) (o : KOut N B) : Prop where
  csx : ColMajor s.sx
  sx : Holds m s.sx SX
  cgx : ColMajor s.gx
  gx : Holds m s.gx o.gx
  cdx : ColMajor s.dx
  dx : Holds m s.dx o.dx
  cgeta : ColMajor s.geta
  geta : Holds m s.geta o.geta
  cdeta : ColMajor s.deta
  deta : Holds m s.deta o.deta
  fr : s.fr = o.fr
  apart : Disjoint (cells s.dx) (cells s.deta)

theorem HoldsSpc.some {N B : ℕ} {m : Mem ℂ} {s : SpcMem} {SX : Mat N B} {o : KOut N B}
    (h : HoldsSpc m s SX o) : ∀ a ∈ s.own, ∃ x, m a = some x := by
  rintro a ((((ha | ha) | ha) | ha) | ha)
  · exact h.sx.accessible a ha
  · exact h.gx.accessible a ha
  · exact h.dx.accessible a ha
  · exact h.geta.accessible a ha
  · exact h.deta.accessible a ha

theorem SpcMem.own_finite (s : SpcMem) : s.own.Finite :=
  ((((cells_finite _).union (cells_finite _)).union (cells_finite _)).union (cells_finite _)).union
    (cells_finite _)

theorem spcMem_ok (hE : EnvOk E la) (hm : Finite m) {N B : ℕ} (hN : 0 < N) (hB : 0 < B) {k : KMem}
    {i : KIn N B} (hk : HoldsK m k i) (p : DirParams) (dF sumfn : ℝ) :
    ∃ s m', spcMem E p dF sumfn k i.wk m = (.ok s, m') ∧
      HoldsSpc m' s (i.S * i.X) (execSpc la p dF sumfn i) ∧ (∀ a ∈ s.own, m a = none) ∧
      SameOutside s.own m m' := by
  obtain ⟨sx, m1, e1, ⟨c1, h1⟩, f1, s1⟩ := applyOp_ok hE hm hN hk.S hk.cX hk.X
  have x1 := Ext.new hm f1 s1 (cells_finite _)
  obtain ⟨llm, m2, e2, ⟨c2, h2⟩, f2, s2⟩ := lmultMem_ok hE x1.fin hN hB hk.P c1 hk.chx h1 (hk.hx.ext0 x1)
  have y2 := Ext.new x1.fin f2 s2 (cells_finite _)
  have x2 := x1.trans y2
  obtain ⟨gx, m3, e3, ⟨c3, h3⟩, f3, s3⟩ := gradxMem_ok hE x2.fin hN c1 h1.1 h1.2.1 hk.chx c2 (hk.hx.ext0 x2)
    (hk.f.ext0 x2) h2 i.wk
  have y3 := Ext.new x2.fin f3 s3 (cells_finite _)
  have x3 := x2.trans y3
  obtain ⟨dx, m4, e4, ⟨c4, h4⟩, f4, s4⟩ := precondgxMem_ok hE x3.fin hN hk.P c1 h1.1 h1.2.1 hk.chx c2
    (hk.hx.ext0 x3) (h2.ext0 y3)
  have y4 := Ext.new x3.fin f4 s4 (cells_finite _)
  have x4 := x3.trans y4
  obtain ⟨hij, m5, e5, ⟨c5, h5⟩, f5, s5⟩ := innerNew_ok hE x4.fin hB hk.cX hk.chx (hk.X.ext0 x4)
    (hk.hx.ext0 x4) (i.wk : ℂ)
  have y5 := Ext.new x4.fin f5 s5 (cells_finite _)
  have x5 := x4.trans y5
  obtain ⟨geta, m6, e6, ⟨c6, h6⟩, f6, s6⟩ := gEtaMem_ok hE x5.fin hB c5 h5 (hk.e.ext0 x5) (hk.f.ext0 x5)
    (smearFns p.t) p.T p.mu i.wk sumfn dF p.mo
  have y6 := Ext.new x5.fin f6 s6 (cells_finite _)
  have x6 := x5.trans y6
  obtain ⟨deta, m7, e7, ⟨c7, h7⟩, f7, s7⟩ := deltaEtaMem_ok hE x6.fin hB c5 (h5.ext0 y6) (hk.e.ext0 x6)
    p.kappa i.wk
  have y7 := Ext.new x6.fin f7 s7 (cells_finite _)
  have x7 := x6.trans y7
  have z47 := (y5.trans y6).trans y7
  have h1' := h1.ext0 ((y2.trans (y3.trans y4)).trans z47)
  have h3' := h3.ext0 (y4.trans z47)
  have h4' := h4.ext0 z47
  have h6' := h6.ext0 y7
  have e8 := innerhTrMem_ok hE x7.fin h3' h4'
  have e9 := innerhTrMem_ok hE x7.fin h6' h7
  obtain ⟨m', e', kk, s⟩ := withScope_ok
    (own := fun s : SpcMem => s.sx.mem ∪ s.gx.mem ∪ s.dx.mem ∪ s.geta.mem ∪ s.deta.mem) (p := do
      let sx ← applyOp E k.S k.X
      let llm ← lmultMem E sx k.hx k.P
      let gx ← gradxMem E sx k.hx k.f llm i.wk
      let dx ← precondgxMem E sx k.hx k.P llm
      let hij ← innerNew E k.X k.hx (i.wk : ℂ)
      let geta ← gEtaMem E (smearFns p.t) p.T hij p.mu i.wk k.e k.f sumfn dF p.mo
      let deta ← deltaEtaMem E p.kappa hij k.e hij.rows i.wk
      let a ← innerhTrMem E gx dx
      let b ← innerhTrMem E geta deta
      pure ⟨sx, gx, dx, geta, deta, 2 * a.re + b.re⟩) (m := m) (by
    rw [ok_bind e1, ok_bind e2, ok_bind e3, ok_bind e4, ok_bind e5, ok_bind e6, ok_bind e7, ok_bind e8,
      ok_bind e9, SM.pure_apply]) x7
  simp only [mem_eq_cells, Set.union_empty] at kk s
  refine ⟨_, m', e', ⟨c1, h1'.scope kk ?_, c3, h3'.scope kk ?_, c4, h4'.scope kk ?_, c6, h6'.scope kk ?_, c7,
    h7.scope kk ?_, rfl, ?_⟩, ?_, s⟩
  · intro a ha; simp [ha]
  · intro a ha; simp [ha]
  · intro a ha; simp [ha]
  · intro a ha; simp [ha]
  · intro a ha; simp [ha]
  · exact disjoint_new (h4.ext0 (y5.trans y6)).accessible f7
  · rintro a ((((ha | ha) | ha) | ha) | ha)
    · exact f1 a ha
    · exact x2.free' f3 a ha
    · exact x3.free' f4 a ha
    · exact x5.free' f6 a ha
    · exact x6.free' f7 a ha

theorem restartMem_ok (hE : EnvOk E la) (hm : Finite m) {N B : ℕ} (hN : 0 < N) (hB : 0 < B) {k : KMem}
    {i : KIn N B} (hk : HoldsK m k i) (p : DirParams) (dF sumfn : ℝ) :
    Refines (restartMem E p dF sumfn k i.wk) m (.ok (execSpc la p dF sumfn i))
      (fun r => cells r.dx ∪ cells r.deta) HoldsRestart := by
  obtain ⟨s, m1, e1, h1, f1, s1⟩ := spcMem_ok hE hm hN hB hk p dF sumfn
  have x1 := Ext.new hm f1 s1 s.own_finite
  obtain ⟨m', e', kk, so⟩ := withScope_ok (own := fun r : RestartMem => r.dx.mem ∪ r.deta.mem) (p := do
      let s ← spcMem E p dF sumfn k i.wk
      pure ⟨s.fr, s.dx, s.deta⟩) (m := m) (by rw [ok_bind e1, SM.pure_apply]) x1
  simp only [mem_eq_cells, Set.union_empty] at kk so
  refine ⟨_, m', e', ⟨h1.fr, h1.cdx, h1.dx.scope kk ?_, h1.cdeta, h1.deta.scope kk ?_, h1.apart⟩, ?_, so⟩
  · intro a ha; simp [ha]
  · intro a ha; simp [ha]
  · rintro a (ha | ha)
    · exact f1 a (by simp [SpcMem.own, ha])
    · exact f1 a (by simp [SpcMem.own, ha])

theorem execConjugateMem_ok (hE : EnvOk E la) (hm : Finite m) {N B : ℕ} (hN : 0 < N) (hB : 0 < B)
    {sx zxp zetap ul gx geta : MView} {SX ZXP GX : Mat N B} {ZETAP UL GETA : Mat B B} (csx : ColMajor sx)
    (czxp : ColMajor zxp) (czetap : ColMajor zetap) (cul : ColMajor ul) (hsx : Holds m sx SX)
    (hzxp : Holds m zxp ZXP) (hzetap : Holds m zetap ZETAP) (hul : Holds m ul UL) (hgx : Holds m gx GX)
    (hgeta : Holds m geta GETA) :
    ∃ zx zeta m', execConjugateMem E sx zxp zetap ul gx geta m =
        (.ok ((execConjugate la SX ZXP ZETAP UL GX GETA).1, zx, zeta), m') ∧
      ColMajor zx ∧ Holds m' zx (execConjugate la SX ZXP ZETAP UL GX GETA).2.1 ∧
      ColMajor zeta ∧ Holds m' zeta (execConjugate la SX ZXP ZETAP UL GX GETA).2.2 ∧
      Disjoint (cells zx) (cells zeta) ∧ (∀ a ∈ cells zx ∪ cells zeta, m a = none) ∧
      SameOutside (cells zx ∪ cells zeta) m m' := by
  obtain ⟨zx, m1, e1, ⟨c1, h1⟩, f1, s1⟩ := transformNew_ok hE hm hN czxp cul hzxp hul
  have x1 := Ext.new hm f1 s1 (cells_finite _)
  obtain ⟨zeta, m2, e2, ⟨c2, h2⟩, f2, s2⟩ := rotateetaMem_ok hE x1.fin hB czetap cul (hzetap.ext0 x1)
    (hul.ext0 x1)
  have y2 := Ext.new x1.fin f2 s2 (cells_finite _)
  have x2 := x1.trans y2
  have d12 := disjoint_new h1.accessible f2
  obtain ⟨_, m3, e3, h3, s3⟩ := conjugatexMem_ok hE x2.fin hN hB c1 csx (h1.ext0 y2) (hsx.ext0 x2)
  have x3 := x2.step s3 (cells_finite _) (fun a ha => .inr (f1 a ha))
  have h2' := h2.frame s3 d12.symm
  have e4 := innerhTrMem_ok hE x3.fin h3 (hgx.ext0 x3)
  have e5 := innerhTrMem_ok hE x3.fin h2' (hgeta.ext0 x3)
  refine ⟨zx, zeta, m3, ?_, c1, h3, c2, h2', d12, ?_, ?_⟩
  · rw [execConjugateMem, ok_bind e1, ok_bind e2, ok_bind e3, ok_bind e4, ok_bind e5, SM.pure_apply]
    rfl
  · rintro a (ha | ha)
    · exact f1 a ha
    · exact x1.free' f2 a ha
  · refine ((s1.trans s2).trans s3).mono ?_
    rintro a ((h | h) | h) <;> simp [h]

theorem conjMem_ok (hE : EnvOk E la) (hm : Finite m) {N B : ℕ} (hN : 0 < N) (hB : 0 < B) {k : KMem}
    {i : KIn N B} (hk : HoldsK m k i) (p : DirParams) (dF sumfn : ℝ) {zxp zetap ul : MView} {ZXP : Mat N B}
    {ZETAP UL : Mat B B} (czxp : ColMajor zxp) (czetap : ColMajor zetap) (cul : ColMajor ul)
    (hzxp : Holds m zxp ZXP) (hzetap : Holds m zetap ZETAP) (hul : Holds m ul UL) :
    Refines (conjMem E p dF sumfn k i.wk zxp zetap ul) m
      (.ok (execSpc la p dF sumfn i, execConjugate la (i.S * i.X) ZXP ZETAP UL
        (execSpc la p dF sumfn i).gx (execSpc la p dF sumfn i).geta))
      (fun r => cells r.dx ∪ cells r.deta ∪ cells r.zx ∪ cells r.zeta) HoldsConj := by
  obtain ⟨s, m1, e1, h1, f1, s1⟩ := spcMem_ok hE hm hN hB hk p dF sumfn
  have x1 := Ext.new hm f1 s1 s.own_finite
  obtain ⟨zx, zeta, m2, e2, cz, hz, ce, he, d, f2, s2⟩ := execConjugateMem_ok hE x1.fin hN hB h1.csx czxp czetap
    cul h1.sx (hzxp.ext0 x1) (hzetap.ext0 x1) (hul.ext0 x1) h1.gx h1.geta
  have y2 := Ext.new x1.fin f2 s2 ((cells_finite _).union (cells_finite _))
  have x2 := x1.trans y2
  obtain ⟨m', e', kk, so⟩ := withScope_ok
    (own := fun r : ConjMem => r.dx.mem ∪ r.deta.mem ∪ r.zx.mem ∪ r.zeta.mem) (p := do
      let s ← spcMem E p dF sumfn k i.wk
      let z ← execConjugateMem E s.sx zxp zetap ul s.gx s.geta
      pure ⟨s.fr, s.dx, s.deta, z.2.1, z.2.2, z.1⟩) (m := m) (by rw [ok_bind e1, ok_bind e2, SM.pure_apply]) x2
  simp only [mem_eq_cells, Set.union_empty] at kk so
  have fx : ∀ a ∈ cells zx, m1 a = none := fun a ha => f2 a (.inl ha)
  have fe : ∀ a ∈ cells zeta, m1 a = none := fun a ha => f2 a (.inr ha)
  refine ⟨_, m', e', ⟨h1.fr, rfl, h1.cdx, (h1.dx.ext0 y2).scope kk ?_, h1.cdeta, (h1.deta.ext0 y2).scope kk ?_,
    cz, hz.scope kk ?_, ce, he.scope kk ?_, h1.apart, disjoint_new h1.dx.accessible fx,
    disjoint_new h1.dx.accessible fe, disjoint_new h1.deta.accessible fx,
    disjoint_new h1.deta.accessible fe, d⟩, ?_, so⟩
  · intro a ha; simp [ha]
  · intro a ha; simp [ha]
  · intro a ha; simp [ha]
  · intro a ha; simp [ha]
  · rintro a (((ha | ha) | ha) | ha)
    · exact f1 a (by simp [SpcMem.own, ha])
    · exact f1 a (by simp [SpcMem.own, ha])
    · exact x1.free' fx a ha
    · exact x1.free' fe a ha

theorem combineMem_ok {N B : ℕ} {r : ConjMem} {o : KOut N B × (ℝ × Mat N B × Mat B B)} (h : HoldsConj m r o)
    (gamma : ℝ) : ∃ m', combineMem E gamma r m = (.ok (), m') ∧
      Holds m' r.zx (addM o.2.2.1 o.1.dx 1 (gamma : ℂ)) ∧
      Holds m' r.zeta (addM o.2.2.2 o.1.deta 1 (gamma : ℂ)) ∧
      SameOutside (cells r.zx ∪ cells r.zeta) m m' := by
  obtain ⟨_, m1, e1, h1, s1⟩ := C44_add E.sch 1 (gamma : ℂ) h.cdx h.czx h.dx h.zx (.inl h.dx_zx)
  obtain ⟨_, m2, e2, h2, s2⟩ := C44_add E.sch 1 (gamma : ℂ) h.cdeta h.czeta (h.deta.frame s1 h.deta_zx)
    (h.zeta.frame s1 h.zx_zeta.symm) (.inl h.deta_zeta)
  refine ⟨m2, ?_, h1.frame s2 h.zx_zeta, h2, s1.trans s2⟩
  rw [combineMem, ok_bind e1, e2]

/-! ## All k-points -/

theorem allCells_finite {K : ℕ} {β : Type} {own : β → Set ℕ} (h : ∀ x, (own x).Finite) :
    ∀ xs : List (Fin K × β), (allCells own xs).Finite
  | [] => by simp [allCells]
  | kx :: xs => by
    have : allCells own (kx :: xs) = own kx.2 ∪ allCells own xs := by
      ext a; simp [allCells]
    rw [this]
    exact (h kx.2).union (allCells_finite h xs)

/-- tasks that only create new objects do not disturb each other -/
theorem runTasks_ok {K : ℕ} {β : Type} {f : Fin K → MemM ℂ β} {own : β → Set ℕ}
    {Q : Mem ℂ → Fin K → β → Prop} (hfin : ∀ x, (own x).Finite)
    (hp : ∀ k m1, Ext ∅ m m1 → ∃ x m', f k m1 = (.ok x, m') ∧ Q m' k x ∧ (∀ a ∈ own x, m1 a = none) ∧
      SameOutside (own x) m1 m')
    (hQ : ∀ m1 m2 k x, Ext ∅ m1 m2 → Q m1 k x → Q m2 k x)
    (hsome : ∀ m1 k x, Q m1 k x → ∀ a ∈ own x, ∃ y, m1 a = some y) :
    ∀ (l : List (Fin K)) (m1 : Mem ℂ), Ext ∅ m m1 →
      ∃ xs m', runTasks l f m1 = (.ok xs, m') ∧ xs.map Prod.fst = l ∧ (∀ kx ∈ xs, Q m' kx.1 kx.2) ∧
        xs.Pairwise (fun a b => Disjoint (own a.2) (own b.2)) ∧ (∀ a ∈ allCells own xs, m1 a = none) ∧
        SameOutside (allCells own xs) m1 m' := by
  intro l
  induction l with
  | nil =>
    intro m1 _
    exact ⟨[], m1, rfl, rfl, by simp, .nil, by simp [allCells], fun _ _ => rfl⟩
  | cons k l ih =>
    intro m1 x1
    obtain ⟨x, m2, e2, q2, f2, s2⟩ := hp k m1 x1
    have y2 := Ext.new x1.fin f2 s2 (hfin x)
    obtain ⟨xs, m3, e3, h3, q3, d3, f3, s3⟩ := ih m2 (x1.trans y2)
    have y3 := Ext.new y2.fin f3 s3 (allCells_finite hfin xs)
    refine ⟨(k, x) :: xs, m3, ?_, by simp [h3], ?_, ?_, ?_, ?_⟩
    · rw [runTasks, ok_bind e2, ok_bind e3, SM.pure_apply]
    · intro kx hkx
      rcases List.mem_cons.1 hkx with rfl | h
      · exact hQ m2 m3 k x y3 q2
      · exact q3 kx h
    · refine List.pairwise_cons.2 ⟨fun kx hkx => ?_, d3⟩
      exact disjoint_new (hsome m2 k x q2) fun a ha => f3 a ⟨kx, hkx, ha⟩
    · rintro a ⟨kx, hkx, ha⟩
      rcases List.mem_cons.1 hkx with rfl | h
      · exact f2 a ha
      · exact y2.free' f3 a ⟨kx, h, ha⟩
    · refine (s2.trans s3).mono ?_
      rintro a (ha | ⟨kx, hkx, ha⟩)
      · exact ⟨(k, x), by simp, ha⟩
      · exact ⟨kx, by simp [hkx], ha⟩

theorem Spec.HoldsConj.ext0 {N B : ℕ} {m m' : Mem ℂ} {r : ConjMem} {o : KOut N B × (ℝ × Mat N B × Mat B B)}
    (h : HoldsConj m r o) (e : Ext ∅ m m') : HoldsConj m' r o :=
  { h with dx := h.dx.ext0 e, deta := h.deta.ext0 e, zx := h.zx.ext0 e, zeta := h.zeta.ext0 e }

theorem Spec.HoldsConj.frame {N B : ℕ} {m m' : Mem ℂ} {r : ConjMem} {o : KOut N B × (ℝ × Mat N B × Mat B B)}
    {S : Set ℕ} (h : HoldsConj m r o) (e : SameOutside S m m')
    (d : Disjoint (cells r.dx ∪ cells r.deta ∪ cells r.zx ∪ cells r.zeta) S) : HoldsConj m' r o := by
  simp only [Set.disjoint_union_left] at d
  exact { h with dx := h.dx.frame e d.1.1.1, deta := h.deta.frame e d.1.1.2, zx := h.zx.frame e d.1.2,
                 zeta := h.zeta.frame e d.2 }

/-- memory of one result -/
def ConjMem.own (r : ConjMem) : Set ℕ := cells r.dx ∪ cells r.deta ∪ cells r.zx ∪ cells r.zeta

theorem ConjMem.own_finite (r : ConjMem) : r.own.Finite :=
  (((cells_finite _).union (cells_finite _)).union (cells_finite _)).union (cells_finite _)

theorem Spec.HoldsConj.some {N B : ℕ} {m : Mem ℂ} {r : ConjMem} {o : KOut N B × (ℝ × Mat N B × Mat B B)}
    (h : HoldsConj m r o) : ∀ a ∈ r.own, ∃ x, m a = some x := by
  rintro a (((ha | ha) | ha) | ha)
  · exact h.dx.accessible a ha
  · exact h.deta.accessible a ha
  · exact h.zx.accessible a ha
  · exact h.zeta.accessible a ha

/-- the in-place updates of all k-points -/
theorem combine_loop {K : ℕ} {n b : Fin K → ℕ}
    {o : (k : Fin K) → KOut (n k) (b k) × (ℝ × Mat (n k) (b k) × Mat (b k) (b k))} (gamma : ℝ) :
    ∀ (xs : List (Fin K × ConjMem)) (m : Mem ℂ), (∀ kx ∈ xs, HoldsConj m kx.2 (o kx.1)) →
      xs.Pairwise (fun x y => Disjoint x.2.own y.2.own) →
      ∃ m', forEach xs (fun kr => combineMem E gamma kr.2) m = (.ok (), m') ∧
        (∀ kx ∈ xs, Holds m' kx.2.zx (addM (o kx.1).2.2.1 (o kx.1).1.dx 1 (gamma : ℂ)) ∧
          Holds m' kx.2.zeta (addM (o kx.1).2.2.2 (o kx.1).1.deta 1 (gamma : ℂ))) ∧
        SameOutside (allCells (fun r : ConjMem => cells r.zx ∪ cells r.zeta) xs) m m' := by
  intro xs
  induction xs with
  | nil => intro m _ _; exact ⟨m, rfl, by simp, fun _ _ => rfl⟩
  | cons x xs ih =>
    intro m h hp
    obtain ⟨hx, hp⟩ := List.pairwise_cons.1 hp
    obtain ⟨m1, e1, a1, a2, s1⟩ := combineMem_ok (E := E) (h x (by simp)) gamma
    have sub : ∀ r : ConjMem, cells r.zx ∪ cells r.zeta ⊆ r.own := by
      intro r a ha
      rcases ha with ha | ha <;> simp [ConjMem.own, ha]
    obtain ⟨m2, e2, h2, s2⟩ := ih m1 (fun kx hkx => (h kx (by simp [hkx])).frame s1
      ((hx kx hkx).symm.mono_right (sub _))) hp
    have dd : Disjoint (cells x.2.zx ∪ cells x.2.zeta)
        (allCells (fun r : ConjMem => cells r.zx ∪ cells r.zeta) xs) := by
      rw [Set.disjoint_left]
      rintro a ha ⟨kx, hkx, ha'⟩
      exact Set.disjoint_left.1 (hx kx hkx) (sub _ ha) (sub _ ha')
    rw [Set.disjoint_union_left] at dd
    refine ⟨m2, ?_, ?_, ?_⟩
    · rw [forEach, ok_bind e1, e2]
    · intro kx hkx
      rcases List.mem_cons.1 hkx with rfl | h'
      · exact ⟨a1.frame s2 dd.1, a2.frame s2 dd.2⟩
      · exact h2 kx h'
    · refine (s1.trans s2).mono ?_
      rintro a (ha | ⟨kx, hkx, ha⟩)
      · exact ⟨x, by simp, ha⟩
      · exact ⟨kx, by simp [hkx], ha⟩

/-- a sum over the results in any order is the sum over the k-points -/
theorem sum_results {K : ℕ} {β : Type} {xs : List (Fin K × β)} (hk : (xs.map Prod.fst).Perm (List.finRange K))
    (g : β → ℝ) (G : Fin K → ℝ) (h : ∀ kx ∈ xs, g kx.2 = G kx.1) :
    (xs.map fun kx => g kx.2).sum = ∑ k, G k := by
  have e1 : (xs.map fun kx => g kx.2) = (xs.map Prod.fst).map G := by
    rw [List.map_map]
    exact List.map_congr_left h
  rw [e1, (hk.map G).sum_eq, ← List.ofFn_eq_map, List.sum_ofFn]

theorem Spec.HoldsRestart.ext0 {N B : ℕ} {m m' : Mem ℂ} {r : RestartMem} {o : KOut N B}
    (h : HoldsRestart m r o) (e : Ext ∅ m m') : HoldsRestart m' r o :=
  { h with dx := h.dx.ext0 e, deta := h.deta.ext0 e }

theorem Spec.HoldsGeo.ext0 {N B : ℕ} {m m' : Mem ℂ} {r : GeoMem} {o : GeoOut N B}
    (h : HoldsGeo m r o) (e : Ext ∅ m m') : HoldsGeo m' r o :=
  { h with ek := h.ek.ext0 e, ul := h.ul.ext0 e, X := h.X.ext0 e }

theorem Spec.HoldsK.ext0 {N B : ℕ} {m m' : Mem ℂ} {k : KMem} {i : KIn N B}
    (h : HoldsK m k i) (e : Ext ∅ m m') : HoldsK m' k i :=
  { h with X := h.X.ext0 e, hx := h.hx.ext0 e, e := h.e.ext0 e, f := h.f.ext0 e }

theorem restartedMem_ok (hE : EnvOk E la) (hm : Finite m) {K : ℕ} {n b : Fin K → ℕ} (hn : ∀ k, 0 < n k)
    (hb : ∀ k, 0 < b k) {ks : Fin K → KMem} {i : (k : Fin K) → KIn (n k) (b k)} (hk : ∀ k, HoldsK m (ks k) (i k))
    (p : DirParams) : ∃ r m', restartedMem E p (globals p i).1 (globals p i).2 ks (fun k => (i k).wk) m = (.ok r, m') ∧
      r.fr = (restarted la p i).1 ∧ OnePerK (fun x : RestartMem => cells x.dx ∪ cells x.deta) r.dir ∧
      (∀ kr ∈ r.dir, HoldsRestart m' kr.2 (execAll la p i kr.1)) ∧
      (∀ a ∈ allCells (fun x : RestartMem => cells x.dx ∪ cells x.deta) r.dir, m a = none) ∧
      SameOutside (allCells (fun x : RestartMem => cells x.dx ∪ cells x.deta) r.dir) m m' := by
  obtain ⟨xs, m', e, hkeys, hQ, hd, hf, hs⟩ := runTasks_ok (m := m)
    (f := fun k => restartMem E p (globals p i).1 (globals p i).2 (ks k) (i k).wk)
    (own := fun x : RestartMem => cells x.dx ∪ cells x.deta)
    (Q := fun m k x => HoldsRestart m x (execAll la p i k))
    (fun _ => (cells_finite _).union (cells_finite _))
    (fun k m1 x1 => restartMem_ok hE x1.fin (hn k) (hb k) ((hk k).ext0 x1) p _ _)
    (fun m1 m2 k x e h => h.ext0 e)
    (fun m1 k x h a ha => ha.elim (h.dx.accessible a) (h.deta.accessible a))
    (E.sch.order (List.finRange K)) m (Ext.refl hm _)
  have hkeys' : (xs.map Prod.fst).Perm (List.finRange K) := hkeys ▸ E.sch.perm _
  refine ⟨⟨(xs.map fun kr => kr.2.fr).sum, xs⟩, m', ?_, ?_, ⟨hkeys', hd⟩, hQ, hf, hs⟩
  · rw [restartedMem, ok_bind e, SM.pure_apply]
  · exact sum_results hkeys' (fun r : RestartMem => r.fr) (fun k => (execAll la p i k).fr)
      fun kx h => (hQ kx h).fr

theorem geodesicAllMem_ok (hE : EnvOk E la) (hm : Finite m) {K : ℕ} {n b : Fin K → ℕ} (hn : ∀ k, 0 < n k)
    (hb : ∀ k, 0 < b k) {x eta zx zeta : Fin K → MView} {X ZX : (k : Fin K) → Mat (n k) (b k)}
    {ETA ZETA : (k : Fin K) → Mat (b k) (b k)} {op : Fin K → HostOp} {S : (k : Fin K) → Mat (n k) (n k)}
    (hop : ∀ k, Applies (op k) (S k)) (cx : ∀ k, ColMajor (x k)) (czx : ∀ k, ColMajor (zx k))
    (czeta : ∀ k, ColMajor (zeta k)) (hx : ∀ k, Holds m (x k) (X k)) (heta : ∀ k, Holds m (eta k) (ETA k))
    (hzx : ∀ k, Holds m (zx k) (ZX k)) (hzeta : ∀ k, Holds m (zeta k) (ZETA k)) (t : ℝ)
    {o : (k : Fin K) → GeoOut (n k) (b k)}
    (ho : ∀ k, geodesicUs la (X k) (ETA k) (ZX k) (ZETA k) (S k) t = .ok (o k)) :
    ∃ xs m', geodesicAllMem E x eta zx zeta op t m = (.ok xs, m') ∧
      OnePerK (fun g : GeoMem => vecCells g.ek g.ul.cols ∪ cells g.ul ∪ cells g.X) xs ∧
      (∀ kg ∈ xs, HoldsGeo m' kg.2 (o kg.1)) ∧
      (∀ a ∈ allCells (fun g : GeoMem => vecCells g.ek g.ul.cols ∪ cells g.ul ∪ cells g.X) xs, m a = none) ∧
      SameOutside (allCells (fun g : GeoMem => vecCells g.ek g.ul.cols ∪ cells g.ul ∪ cells g.X) xs) m m' := by
  obtain ⟨xs, m', e, hkeys, hQ, hd, hf, hs⟩ := runTasks_ok (m := m)
    (f := fun k => geodesicMem E (x k) (eta k) (zx k) (zeta k) (op k) t)
    (own := fun g : GeoMem => vecCells g.ek g.ul.cols ∪ cells g.ul ∪ cells g.X)
    (Q := fun m k g => HoldsGeo m g (o k))
    (fun _ => ((vecCells_finite _ _).union (cells_finite _)).union (cells_finite _))
    (fun k m1 x1 => by
      have h := geodesicMem_ok hE x1.fin (hn k) (hb k) (hop k) (cx k) (czx k) (czeta k) ((hx k).ext0 x1)
        ((heta k).ext0 x1) ((hzx k).ext0 x1) ((hzeta k).ext0 x1) t
      rw [ho k] at h
      obtain ⟨g, m', e, q, f, s⟩ := h
      exact ⟨g, m', e, q, by simpa only [q.ul.2.1] using f, by simpa only [q.ul.2.1] using s⟩)
    (fun m1 m2 k x e h => h.ext0 e)
    (fun m1 k g h a ha => by
      rw [h.ul.2.1] at ha
      rcases ha with (ha | ha) | ha
      · exact h.ek.some a ha
      · exact h.ul.accessible a ha
      · exact h.X.accessible a ha)
    (E.sch.order (List.finRange K)) m (Ext.refl hm _)
  have hfin : ∀ g : GeoMem, (vecCells g.ek g.ul.cols ∪ cells g.ul ∪ cells g.X).Finite :=
    fun _ => ((vecCells_finite _ _).union (cells_finite _)).union (cells_finite _)
  have eo : geoAllMem xs = allCells (fun g : GeoMem => vecCells g.ek g.ul.cols ∪ cells g.ul ∪ cells g.X) xs := by
    simp only [geoAllMem, allCells, GeoMem.mem, mem_eq_cells, vecMem_eq]
  obtain ⟨m'', e'', k'', s''⟩ := withScope_ok (own := geoAllMem) e (Ext.new hm hf hs (allCells_finite hfin xs))
  rw [eo, Set.union_empty] at s''
  rw [eo] at k''
  refine ⟨xs, m'', e'', ⟨hkeys ▸ E.sch.perm _, hd⟩, fun kg h => ?_, hf, s''⟩
  have q := hQ kg h
  have sub : vecCells kg.2.ek kg.2.ul.cols ∪ cells kg.2.ul ∪ cells kg.2.X ⊆
      allCells (fun g : GeoMem => vecCells g.ek g.ul.cols ∪ cells g.ul ∪ cells g.X) xs :=
    fun a ha => ⟨kg, h, ha⟩
  rw [Set.union_subset_iff, Set.union_subset_iff, q.ul.2.1] at sub
  refine { q with ek := fun i => ?_, ul := q.ul.scope k'' sub.1.2, X := q.X.scope k'' sub.2 }
  rw [k'' _ (.inl (sub.1.1 ⟨Nat.le_add_right _ _, Nat.add_lt_add_left i.2 _⟩))]
  exact q.ek i

/-- a task that throws ends it, whatever the order -/
theorem runTasks_fail {K : ℕ} {β : Type} {f : Fin K → MemM ℂ β} {bad : Fin K → Prop} {x : Exc}
    (hbad : ∀ k m1, Ext ∅ m m1 → bad k → f k m1 = (.throw x, m1))
    (hgood : ∀ k m1, Ext ∅ m m1 → ¬ bad k → ∃ y m2, f k m1 = (.ok y, m2) ∧ Ext ∅ m1 m2) :
    ∀ (l : List (Fin K)) (m1 : Mem ℂ), Ext ∅ m m1 → (∃ k ∈ l, bad k) →
      ∃ m2, runTasks l f m1 = (.throw x, m2) ∧ Ext ∅ m m2 := by
  intro l
  induction l with
  | nil => simp
  | cons k l ih =>
    intro m1 x1 h
    by_cases hk : bad k
    · exact ⟨m1, by rw [runTasks, throw_bind (hbad k m1 x1 hk)], x1⟩
    · obtain ⟨y, m2, e2, x2⟩ := hgood k m1 x1 hk
      obtain ⟨k', hk', hb'⟩ := h
      have : k' ∈ l := by
        rcases List.mem_cons.1 hk' with rfl | h
        · exact absurd hb' hk
        · exact h
      obtain ⟨m3, e3, x3⟩ := ih m2 (x1.trans x2) ⟨k', this, hb'⟩
      exact ⟨m3, by rw [runTasks, ok_bind e2, throw_bind e3], x3⟩

/-- a step ends with a value or with `std::runtime_error` -/
theorem geodesicUs_cases {N B : ℕ} (la : Lapack) (X ZX : Mat N B) (eta zeta : Mat B B) (S : Mat N N) (t : ℝ) :
    (∃ o, geodesicUs la X eta ZX zeta S t = .ok o) ∨ geodesicUs la X eta ZX zeta S t = .throw .runtimeError := by
  have he : ∀ {n : ℕ} (A : Mat n n), (∃ o, la.eigh A = .ok o) ∨ la.eigh A = .throw .runtimeError := by
    intro n A
    simp only [Lapack.eigh]
    split <;> simp
  unfold geodesicUs advanceX loewdin
  rcases he (advanceEta t eta zeta) with ⟨o, h⟩ | h
  · simp only [h, Res.bind_ok]
    rcases he (innerM (addM X ZX (t : ℂ)) (S * addM X ZX (t : ℂ))) with ⟨o', h'⟩ | h'
    · simp [h']
    · simp [h']
  · simp [h]

theorem forAllK_cases : {K : ℕ} → {β : Fin K → Type} → (f : (k : Fin K) → Res (β k)) → {x : Exc} →
    (∀ k, (∃ r, f k = .ok r) ∨ f k = .throw x) →
    (∃ r, forAllK f = .ok r) ∨ ((∃ k, f k = .throw x) ∧ forAllK f = .throw x)
  | 0, _, _, _, _ => .inl ⟨_, rfl⟩
  | K + 1, β, f, x, h => by
    rcases h 0 with ⟨a, ha⟩ | ha
    · rcases forAllK_cases (fun k => f k.succ) (fun k => h k.succ) with ⟨q, hq⟩ | ⟨⟨k, hk⟩, hq⟩
      · exact .inl ⟨_, by rw [forAllK, ha, Res.bind_ok, hq]; rfl⟩
      · exact .inr ⟨⟨_, hk⟩, by rw [forAllK, ha, Res.bind_ok, hq]; rfl⟩
    · exact .inr ⟨⟨0, ha⟩, by rw [forAllK, ha]; rfl⟩

theorem geodesicAllMem_refines (hE : EnvOk E la) (hm : Finite m) {K : ℕ} {n b : Fin K → ℕ} (hn : ∀ k, 0 < n k)
    (hb : ∀ k, 0 < b k) {x eta zx zeta : Fin K → MView} {X ZX : (k : Fin K) → Mat (n k) (b k)}
    {ETA ZETA : (k : Fin K) → Mat (b k) (b k)} {op : Fin K → HostOp} {S : (k : Fin K) → Mat (n k) (n k)}
    (hop : ∀ k, Applies (op k) (S k)) (cx : ∀ k, ColMajor (x k)) (czx : ∀ k, ColMajor (zx k))
    (czeta : ∀ k, ColMajor (zeta k)) (hx : ∀ k, Holds m (x k) (X k)) (heta : ∀ k, Holds m (eta k) (ETA k))
    (hzx : ∀ k, Holds m (zx k) (ZX k)) (hzeta : ∀ k, Holds m (zeta k) (ZETA k)) (t : ℝ) :
    Refines (geodesicAllMem E x eta zx zeta op t) m
      (forAllK fun k => geodesicUs la (X k) (ETA k) (ZX k) (ZETA k) (S k) t)
      (allCells fun g : GeoMem => vecCells g.ek g.ul.cols ∪ cells g.ul ∪ cells g.X) fun m' xs o =>
        OnePerK (fun g : GeoMem => vecCells g.ek g.ul.cols ∪ cells g.ul ∪ cells g.X) xs ∧
        ∀ kg ∈ xs, HoldsGeo m' kg.2 (o kg.1) := by
  rcases forAllK_cases (fun k => geodesicUs la (X k) (ETA k) (ZX k) (ZETA k) (S k) t)
    (fun k => geodesicUs_cases la _ _ _ _ _ t) with ⟨o, ho⟩ | ⟨⟨k, hk⟩, hf⟩
  · obtain ⟨xs, m', e, h1, h2, h3, h4⟩ := geodesicAllMem_ok hE hm hn hb hop cx czx czeta hx heta hzx hzeta t
      (forAllK_ok ho)
    rw [ho]
    exact ⟨xs, m', e, ⟨h1, h2⟩, h3, h4⟩
  · rw [hf]
    have hg := fun k (m1 : Mem ℂ) (x1 : Ext ∅ m m1) =>
      geodesicMem_ok hE x1.fin (hn k) (hb k) (hop k) (cx k) (czx k) (czeta k) ((hx k).ext0 x1)
        ((heta k).ext0 x1) ((hzx k).ext0 x1) ((hzeta k).ext0 x1) t
    obtain ⟨m2, e2, x2⟩ := runTasks_fail (m := m) (x := .runtimeError)
      (f := fun k => geodesicMem E (x k) (eta k) (zx k) (zeta k) (op k) t)
      (bad := fun k => geodesicUs la (X k) (ETA k) (ZX k) (ZETA k) (S k) t = .throw .runtimeError)
      (fun k m1 x1 h => by
        have := hg k m1 x1
        rw [h] at this
        exact this)
      (fun k m1 x1 h => by
        have h' := hg k m1 x1
        obtain ⟨o, ho⟩ := (geodesicUs_cases la (X k) (ZX k) (ETA k) (ZETA k) (S k) t).resolve_right h
        rw [ho] at h'
        obtain ⟨g, m', e, q, f, s⟩ := h'
        exact ⟨g, m', e, Ext.new x1.fin f s (((vecCells_finite _ _).union (cells_finite _)).union
          (cells_finite _))⟩)
      (E.sch.order (List.finRange K)) m (Ext.refl hm _)
      ⟨k, (E.sch.perm _).mem_iff.2 (List.mem_finRange k), hk⟩
    exact withScope_throw e2 x2

theorem conjugatedMem_ok (hE : EnvOk E la) (hm : Finite m) {K : ℕ} {n b : Fin K → ℕ} (hn : ∀ k, 0 < n k)
    (hb : ∀ k, 0 < b k) {ks : Fin K → KMem} {i : (k : Fin K) → KIn (n k) (b k)} (hk : ∀ k, HoldsK m (ks k) (i k))
    (p : DirParams) (frOld : ℝ) {zxp zetap ul : Fin K → MView} {old : Dir n b}
    {UL : (k : Fin K) → Mat (b k) (b k)} (czxp : ∀ k, ColMajor (zxp k)) (czetap : ∀ k, ColMajor (zetap k))
    (cul : ∀ k, ColMajor (ul k)) (hzxp : ∀ k, Holds m (zxp k) (old.zx k))
    (hzetap : ∀ k, Holds m (zetap k) (old.zeta k)) (hul : ∀ k, Holds m (ul k) (UL k)) :
    ∃ r m', conjugatedMem E p (globals p i).1 (globals p i).2 frOld ks (fun k => (i k).wk) zxp zetap ul m =
        (.ok r, m') ∧
      r.fr = (conjugated la p frOld i old UL).1 ∧ r.slope = (conjugated la p frOld i old UL).2.1 ∧
      OnePerK (fun x : ConjMem => cells x.zx ∪ cells x.zeta) r.dir ∧
      (∀ kr ∈ r.dir, ColMajor kr.2.zx ∧ Holds m' kr.2.zx ((conjugated la p frOld i old UL).2.2.zx kr.1) ∧
        ColMajor kr.2.zeta ∧ Holds m' kr.2.zeta ((conjugated la p frOld i old UL).2.2.zeta kr.1) ∧
        Disjoint (cells kr.2.zx) (cells kr.2.zeta)) ∧
      (∀ a ∈ allCells (fun x : ConjMem => cells x.zx ∪ cells x.zeta) r.dir, m a = none) ∧
      SameOutside (allCells (fun x : ConjMem => cells x.zx ∪ cells x.zeta) r.dir) m m' := by
  let o : (k : Fin K) → KOut (n k) (b k) × (ℝ × Mat (n k) (b k) × Mat (b k) (b k)) :=
    fun k => (execAll la p i k, conjAll la p i old UL k)
  obtain ⟨xs, m1, e1, hkeys, hQ, hd, hf, hs⟩ := runTasks_ok (m := m)
    (f := fun k => conjMem E p (globals p i).1 (globals p i).2 (ks k) (i k).wk (zxp k) (zetap k) (ul k))
    (own := ConjMem.own)
    (Q := fun m k x => HoldsConj m x (o k)) ConjMem.own_finite
    (fun k m1 x1 => conjMem_ok hE x1.fin (hn k) (hb k) ((hk k).ext0 x1) p _ _ (czxp k) (czetap k) (cul k)
      ((hzxp k).ext0 x1) ((hzetap k).ext0 x1) ((hul k).ext0 x1))
    (fun m1 m2 k x e h => h.ext0 e) (fun m1 k x h => h.some)
    (E.sch.order (List.finRange K)) m (Ext.refl hm _)
  have hkeys' : (xs.map Prod.fst).Perm (List.finRange K) := hkeys ▸ E.sch.perm _
  have x1 := Ext.new hm hf hs (allCells_finite ConjMem.own_finite xs)
  have hfr : (xs.map fun kr => kr.2.fr).sum = ∑ k, (execAll la p i k).fr :=
    sum_results hkeys' (fun r : ConjMem => r.fr) _ fun kx h => (hQ kx h).fr
  have hsl : (xs.map fun kr => kr.2.slope).sum = ∑ k, (conjAll la p i old UL k).1 :=
    sum_results hkeys' (fun r : ConjMem => r.slope) _ fun kx h => (hQ kx h).slope
  have sub : ∀ r : ConjMem, cells r.zx ∪ cells r.zeta ⊆ r.own := by
    intro r a ha
    rcases ha with ha | ha <;> simp [ConjMem.own, ha]
  have hperm := E.sch.perm xs
  obtain ⟨m2, e2, h2, s2⟩ := combine_loop (E := E) (o := o) ((∑ k, (execAll la p i k).fr) / frOld)
    (E.sch.order xs) m1 (fun kx h => hQ kx (hperm.mem_iff.1 h)) (hperm.symm.pairwise hd fun h => h.symm)
  have all_eq : allCells (fun r : ConjMem => cells r.zx ∪ cells r.zeta) (E.sch.order xs) =
      allCells (fun r : ConjMem => cells r.zx ∪ cells r.zeta) xs := by
    ext a
    simp only [allCells, Set.mem_ofPred_eq]
    exact ⟨fun ⟨k, h, h'⟩ => ⟨k, hperm.mem_iff.1 h, h'⟩, fun ⟨k, h, h'⟩ => ⟨k, hperm.mem_iff.2 h, h'⟩⟩
  rw [all_eq] at s2
  have free : ∀ a ∈ allCells (fun r : ConjMem => cells r.zx ∪ cells r.zeta) xs, m a = none := by
    rintro a ⟨kx, hkx, ha⟩
    exact hf a ⟨kx, hkx, sub _ ha⟩
  have x2 := x1.step s2 (allCells_finite (fun _ => (cells_finite _).union (cells_finite _)) xs)
    (fun a ha => .inr (free a ha))
  obtain ⟨m', e', kk, so⟩ := withScope_ok (own := ConjAllMem.mem) (p := do
      let res ← runTasks (E.sch.order (List.finRange K)) fun k =>
        conjMem E p (globals p i).1 (globals p i).2 (ks k) (i k).wk (zxp k) (zetap k) (ul k)
      let fr := (res.map fun kr => kr.2.fr).sum
      let gamma := fr / frOld
      let slopeZp := (res.map fun kr => kr.2.slope).sum
      forEach (E.sch.order res) fun kr => combineMem E gamma kr.2
      pure ⟨fr, fr + gamma * slopeZp, res⟩) (m := m)
      (x := (⟨(xs.map fun kr => kr.2.fr).sum, (xs.map fun kr => kr.2.fr).sum +
        (xs.map fun kr => kr.2.fr).sum / frOld * (xs.map fun kr => kr.2.slope).sum, xs⟩ : ConjAllMem K)) (by
    rw [ok_bind e1]
    rw [← hfr] at e2
    rw [ok_bind e2, SM.pure_apply]) x2
  have own_eq : ∀ f s, ConjAllMem.mem ⟨f, s, xs⟩ = allCells (fun r : ConjMem => cells r.zx ∪ cells r.zeta) xs := by
    intro f s
    simp only [ConjAllMem.mem, mem_eq_cells]
    rfl
  rw [own_eq] at kk so
  rw [Set.union_empty] at so
  refine ⟨_, m', e', hfr, ?_, ⟨hkeys', ?_⟩, ?_, free, so⟩
  · simp only [hfr, hsl]
    rfl
  · exact hd.imp fun h => h.mono (sub _) (sub _)
  · intro kr hkr
    obtain ⟨a1, a2⟩ := h2 kr (hperm.mem_iff.2 hkr)
    have q := hQ kr hkr
    exact ⟨q.czx, a1.scope kk fun a ha => ⟨kr, hkr, .inl ha⟩, q.czeta,
      a2.scope kk fun a ha => ⟨kr, hkr, .inr ha⟩, q.zx_zeta⟩

end

end Nlcg
