import Verif.Proofs.MemAlgo
import Verif.Proofs.GpuRef

/-! An environment that does what `Spec/MemAlgo` asks for, and memory that holds given matrices. -/

namespace Nlcg
open Matrix Spec
noncomputable section

/-- LAPACK routines on memory: read the matrices, compute, write the results -/
def memLib (la : Lapack) : HostLib ℂ where
  zpotrf n A lda m := let r := la.potrf (readRect m n n A lda); (writeRect m A lda r.1, r.2)
  zpotrs n k A lda B ldb m :=
    let r := la.potrs (readRect m n n A lda) (readRect m n k B ldb); (writeRect m B ldb r.1, r.2)
  zheevd := memHeevd la

theorem writeRect_same {n k : ℕ} {m : Mem ℂ} {v : MView} {X : Matrix (Fin n) (Fin k) ℂ} (cv : ColMajor v)
    (hr : v.rows = n) (hc : v.cols = k) : SameOutside (cells v) m (writeRect m v.data v.s1 X) := by
  intro a ha
  rw [writeRect, dif_neg]
  rintro ⟨p, rfl⟩
  exact ha ⟨p.1, p.2, hr ▸ p.1.2, hc ▸ p.2.2, by rw [cv.unit]⟩

theorem memLib_implements (la : Lapack) : Implements (memLib la) la where
  heevd n v w m A cv hA _ hd := by
    refine ⟨memHeevd_info cv hA, ?_, ?_, ?_⟩
    · simp only [memLib, memHeevd]
      rw [readMat_eq cv hA]
      exact writeBoth_holds cv hA.1 hA.2.1
    · simp only [memLib, memHeevd]
      rw [readMat_eq cv hA]
      exact writeBoth_vec cv hA.1 hA.2.1 hd
    · intro a ha
      simp only [memLib, memHeevd]
      rw [writeBoth, dif_neg, dif_neg]
      · rintro ⟨i, rfl⟩
        exact ha (.inr ⟨by omega, by omega⟩)
      · rintro ⟨p, rfl⟩
        exact ha (.inl ⟨p.1, p.2, hA.1 ▸ p.1.2, hA.2.1 ▸ p.2.2, by rw [cv.unit]⟩)
  potrf n v m A cv hA := by
    simp only [memLib]
    rw [readRect_eq cv hA]
    exact ⟨writeRect_holds cv hA.1 hA.2.1, writeRect_same cv hA.1 hA.2.1⟩
  potrs n k vA vB m A B cA cB hA hB hd := by
    simp only [memLib]
    rw [readRect_eq cA hA, readRect_eq cB hB]
    exact ⟨writeRect_holds cB hB.1 hB.2.1, writeRect_same cB hB.1 hB.2.1⟩

theorem exists_free {m : Mem ℂ} (h : Finite m) (n : ℕ) : ∃ b, Free m b n := by
  obtain ⟨b, hb⟩ := h.bddAbove
  refine ⟨b + 1, fun a ha _ => ?_⟩
  by_contra hne
  have := hb hne
  omega

open Classical in
/-- an allocator that finds free memory; new memory holds the number 7 -/
def memHeap : Heap where
  place m n := if h : ∃ b, Free m b n then h.choose else 0
  garbage := fun _ => 7

theorem memHeap_ok : Heap.Ok memHeap := by
  intro m n h
  have e := exists_free h n
  simp only [memHeap]
  rw [dif_pos e]
  exact e.choose_spec

/-- the environment -/
def memEnv (la : Lapack) (sch : Sched) : HostEnv := ⟨memLib la, memHeap, sch⟩

theorem memEnv_ok (la : Lapack) (sch : Sched) : EnvOk (memEnv la sch) la := ⟨memHeap_ok, memLib_implements la⟩

/-- multiplication with `S` as an operator of the host -/
def mulOp {N : ℕ} (S : Mat N N) : HostOp := fun y x m =>
  (.ok (), writeRect m y.data y.s1 (S * readRect m N x.cols x.data x.s1))

theorem mulOp_applies {N : ℕ} (S : Mat N N) : Applies (mulOp S) S := by
  intro B y x m X cy cx hr hc hx _ _
  obtain ⟨h1, h2, h3⟩ := hx
  subst h2
  refine ⟨(), _, rfl, ?_, ?_⟩
  · rw [readRect_eq cx ⟨h1, rfl, h3⟩]
    exact writeRect_holds cy hr hc
  · exact writeRect_same cy hr hc

/-! ## Memory that holds given matrices -/

theorem empty_finite : Spec.Finite (fun _ => none : Mem ℂ) := by simp [Spec.Finite]

theorem put_mat {m : Mem ℂ} (hm : Finite m) {r c : ℕ} (hr : 0 < r) (A : Mat r c) :
    ∃ v m', Ext ∅ m m' ∧ ColMajor v ∧ Holds m' v A := by
  obtain ⟨b, hb⟩ := exists_free hm (r * c)
  have cv : ColMajor ⟨b, r, c, 1, r, true⟩ := contiguous_colMajor hr
  refine ⟨⟨b, r, c, 1, r, true⟩, writeRect m b r A, ?_, cv, writeRect_holds cv rfl rfl⟩
  refine Ext.new hm ?_ (writeRect_same cv rfl rfl) (cells_finite _)
  rintro a ⟨i, j, hi, hj, rfl⟩
  have : i * 1 + j * r < r * c := by
    calc i * 1 + j * r < r + j * r := by simp only at hi; omega
      _ = (j + 1) * r := by ring
      _ ≤ c * r := Nat.mul_le_mul_right _ hj
      _ = r * c := Nat.mul_comm _ _
  exact hb _ (by simp only; omega) (by simp only; omega)

theorem put_vec {m : Mem ℂ} (hm : Finite m) {n : ℕ} (hn : 0 < n) (x : Fin n → ℝ) :
    ∃ w m', Ext ∅ m m' ∧ HoldsReal m' w x := by
  obtain ⟨v, m', e, cv, hv⟩ := put_mat hm hn (fun (i : Fin n) (_ : Fin 1) => (x i : ℂ))
  refine ⟨v.data, m', e, fun i => ?_⟩
  have := hv.2.2 i 0
  rw [cv.unit] at this
  simpa using this

theorem put_k {m : Mem ℂ} (hm : Finite m) {N B : ℕ} (hN : 0 < N) (hB : 0 < B) (i : KIn N B) :
    ∃ k m', Ext ∅ m m' ∧ HoldsK m' k i := by
  obtain ⟨vX, m1, x1, cX, hX⟩ := put_mat hm hN i.X
  obtain ⟨vh, m2, x2, ch, hh⟩ := put_mat x1.fin hN i.hx
  obtain ⟨ve, m3, x3, he⟩ := put_vec x2.fin hB i.e
  obtain ⟨vf, m4, x4, hf⟩ := put_vec x3.fin hB i.f
  exact ⟨⟨vX, vh, ve, vf, mulOp i.S, mulOp i.P⟩, m4, ((x1.trans x2).trans x3).trans x4, cX,
    ((hX.ext0 x2).ext0 x3).ext0 x4, ch, (hh.ext0 x3).ext0 x4, he.ext0 x4, hf, mulOp_applies _, mulOp_applies _⟩

theorem put_all {K : ℕ} {β : Type} [Inhabited β] {P : Mem ℂ → Fin K → β → Prop}
    (st : ∀ m m' k x, Ext ∅ m m' → P m k x → P m' k x)
    (put : ∀ m k, Spec.Finite m → ∃ x m', Ext ∅ m m' ∧ P m' k x) {m : Mem ℂ} (hm : Finite m) :
    ∃ (f : Fin K → β) (m' : Mem ℂ), Ext ∅ m m' ∧ ∀ k, P m' k (f k) := by
  have key : ∀ l : List (Fin K), ∃ (f : Fin K → β) (m' : Mem ℂ), Ext ∅ m m' ∧ ∀ k ∈ l, P m' k (f k) := by
    intro l
    induction l with
    | nil => exact ⟨fun _ => default, m, Ext.refl hm _, by simp⟩
    | cons k l ih =>
      obtain ⟨f, m1, x1, h1⟩ := ih
      obtain ⟨x, m2, x2, h2⟩ := put m1 k x1.fin
      refine ⟨Function.update f k x, m2, x1.trans x2, fun k' hk' => ?_⟩
      by_cases e : k' = k
      · subst e
        rw [Function.update_self]
        exact h2
      · rw [Function.update_of_ne e]
        exact st _ _ _ _ x2 (h1 k' ((List.mem_cons.1 hk').resolve_left e))
  obtain ⟨f, m', x, h⟩ := key (List.finRange K)
  exact ⟨f, m', x, fun k => h k (List.mem_finRange k)⟩

end

end Nlcg
