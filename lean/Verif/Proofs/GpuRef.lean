import Verif.Proofs.Gpu
import Verif.Proofs.LinAlg

/-! An eigensolver working on memory that keeps its contract: the matrix is read, handed to an
eigensolver for matrices, and its answer is written back. -/

namespace Nlcg
open Spec Matrix

/-- the `n` by `n` matrix stored at `A` -/
def readMat (m : Mem ℂ) (n A lda : ℕ) : Mat n n := fun i j =>
  match m (A + i * 1 + j * lda) with
  | some x => x
  | none => 0

open Classical in
/-- memory after writing a matrix and a vector -/
noncomputable def writeBoth (m : Mem ℂ) {n : ℕ} (A lda w : ℕ) (U : Mat n n) (ω : Fin n → ℝ) : Mem ℂ := fun a =>
  if h : ∃ p : Fin n × Fin n, a = A + p.1 * 1 + p.2 * lda then some (U h.choose.1 h.choose.2)
  else if h : ∃ i : Fin n, a = w + i then some (ω h.choose : ℂ)
  else m a

/-- an eigensolver for matrices made into one for memory -/
noncomputable def memHeevd (la : Lapack) (n A lda w : ℕ) (m : Mem ℂ) : Mem ℂ × ℤ :=
  let r := la.heevd (readMat m n A lda)
  (writeBoth m A lda w r.1.2 r.1.1, r.2)

theorem readMat_eq {n : ℕ} {m : Mem ℂ} {v : MView} {A : Mat n n} (cv : ColMajor v) (h : Holds m v A) :
    readMat m n v.data v.s1 = A := by
  ext i j
  have := h.2.2 i j
  rw [cv.unit] at this
  simp only [readMat]
  rw [this]

theorem writeBoth_holds {n : ℕ} {m : Mem ℂ} {v : MView} {w : ℕ} {U : Mat n n} {ω : Fin n → ℝ}
    (cv : ColMajor v) (hr : v.rows = n) (hc : v.cols = n) : Holds (writeBoth m v.data v.s1 w U ω) v U := by
  refine ⟨hr, hc, fun i j => ?_⟩
  have h : ∃ p : Fin n × Fin n, v.data + i * v.s0 + j * v.s1 = v.data + p.1 * 1 + p.2 * v.s1 :=
    ⟨(i, j), by rw [cv.unit]⟩
  rw [writeBoth, dif_pos h]
  have hp := h.choose_spec
  generalize h.choose = p at hp ⊢
  obtain ⟨e1, e2⟩ := cv.inj i j p.1 p.2 (hr ▸ i.2) (hc ▸ j.2) (hr ▸ p.1.2)
    (hc ▸ p.2.2) (by rw [cv.unit] at hp ⊢; exact hp)
  rw [← Fin.ext e1, ← Fin.ext e2]

theorem writeBoth_vec {n : ℕ} {m : Mem ℂ} {v : MView} {w : ℕ} {U : Mat n n} {ω : Fin n → ℝ}
    (cv : ColMajor v) (hr : v.rows = n) (hc : v.cols = n) (hd : Disjoint (cells v) (vecCells w n)) :
    HoldsVec (writeBoth m v.data v.s1 w U ω) w fun i => (ω i : ℂ) := by
  intro i
  have h1 : ¬ ∃ p : Fin n × Fin n, w + i = v.data + p.1 * 1 + p.2 * v.s1 := by
    rintro ⟨p, hp⟩
    exact Set.disjoint_left.1 hd (show w + i ∈ cells v from
      ⟨p.1, p.2, hr ▸ p.1.2, hc ▸ p.2.2, by rw [cv.unit]; exact hp⟩) ⟨by omega, by omega⟩
  have h2 : ∃ k : Fin n, w + i = w + k := ⟨i, rfl⟩
  rw [writeBoth, dif_neg h1, dif_pos h2]
  have := h2.choose_spec
  have e : h2.choose = i := Fin.ext (by omega)
  rw [e]

theorem memHeevd_solver {la : Lapack} (hla : LapackOk la) : EigenSolver (memHeevd la) where
  solves n v w m A cv hA hH _ hd hi := by
    have e := readMat_eq cv hA
    simp only [memHeevd] at hi ⊢
    rw [e] at hi ⊢
    exact ⟨_, _, hla.eigen A hH hi, writeBoth_holds cv hA.1 hA.2.1, writeBoth_vec cv hA.1 hA.2.1 hd⟩
  confined n v w m cv hr hc := by
    constructor
    · intro a ha
      simp only [memHeevd]
      rw [writeBoth, dif_neg, dif_neg]
      · rintro ⟨i, rfl⟩
        exact ha (.inr ⟨by omega, by omega⟩)
      · rintro ⟨p, rfl⟩
        exact ha (.inl ⟨p.1, p.2, hr ▸ p.1.2, hc ▸ p.2.2, by rw [cv.unit]⟩)
    · intro a x hx
      simp only [memHeevd, writeBoth]
      split
      · exact ⟨_, rfl⟩
      · split
        · exact ⟨_, rfl⟩
        · exact ⟨x, hx⟩

theorem memHeevd_info {la : Lapack} {n : ℕ} {m : Mem ℂ} {v : MView} {w : ℕ} {A : Mat n n} (cv : ColMajor v)
    (hA : Holds m v A) : (memHeevd la n v.data v.s1 w m).2 = (la.heevd A).2 := by
  simp only [memHeevd]
  rw [readMat_eq cv hA]

/-! A solver of linear systems that keeps its contract: nothing is done in the factorisation. -/

/-- the `n` by `k` matrix stored at `B` -/
def readRect (m : Mem ℂ) (n k B ldb : ℕ) : Matrix (Fin n) (Fin k) ℂ := fun i j =>
  match m (B + i * 1 + j * ldb) with
  | some x => x
  | none => 0

open Classical in
/-- memory after writing a matrix -/
noncomputable def writeRect (m : Mem ℂ) {n k : ℕ} (B ldb : ℕ) (X : Matrix (Fin n) (Fin k) ℂ) : Mem ℂ := fun a =>
  if h : ∃ p : Fin n × Fin k, a = B + p.1 * 1 + p.2 * ldb then some (X h.choose.1 h.choose.2) else m a

/-- the solution by means of the inverse -/
noncomputable def memPotrs (n k A lda B ldb : ℕ) (m : Mem ℂ) : Mem ℂ × ℤ :=
  (writeRect m B ldb ((readRect m n n A lda)⁻¹ * readRect m n k B ldb), 0)

theorem readRect_eq {n k : ℕ} {m : Mem ℂ} {v : MView} {A : Matrix (Fin n) (Fin k) ℂ} (cv : ColMajor v)
    (h : Holds m v A) : readRect m n k v.data v.s1 = A := by
  ext i j
  have := h.2.2 i j
  rw [cv.unit] at this
  simp only [readRect]
  rw [this]

theorem writeRect_holds {n k : ℕ} {m : Mem ℂ} {v : MView} {X : Matrix (Fin n) (Fin k) ℂ}
    (cv : ColMajor v) (hr : v.rows = n) (hc : v.cols = k) : Holds (writeRect m v.data v.s1 X) v X := by
  refine ⟨hr, hc, fun i j => ?_⟩
  have h : ∃ p : Fin n × Fin k, v.data + i * v.s0 + j * v.s1 = v.data + p.1 * 1 + p.2 * v.s1 :=
    ⟨(i, j), by rw [cv.unit]⟩
  rw [writeRect, dif_pos h]
  have hp := h.choose_spec
  generalize h.choose = p at hp ⊢
  obtain ⟨e1, e2⟩ := cv.inj i j p.1 p.2 (hr ▸ i.2) (hc ▸ j.2) (hr ▸ p.1.2)
    (hc ▸ p.2.2) (by rw [cv.unit] at hp ⊢; exact hp)
  rw [← Fin.ext e1, ← Fin.ext e2]

open scoped ComplexOrder in
theorem memPotrs_solver : CholeskySolver (fun _ _ _ m => (m, 0)) memPotrs := by
  intro n k vA vB m A B cA cB hA hB hd pA
  have o : SameOutside (cells vB) m (writeRect m vB.data vB.s1 (A⁻¹ * B)) := by
    intro a ha
    rw [writeRect, dif_neg]
    rintro ⟨p, rfl⟩
    exact ha ⟨p.1, p.2, hB.1 ▸ p.1.2, hB.2.1 ▸ p.2.2, by rw [cB.unit]⟩
  refine ⟨_, A, A⁻¹ * B, ?_, hA.frame o hd, writeRect_holds cB hB.1 hB.2.1, ?_, o.mono (by simp)⟩
  · simp only [memPotrs]
    rw [readRect_eq cA hA, readRect_eq cB hB]
  · rw [← Matrix.mul_assoc, Matrix.mul_nonsing_inv _ ((Matrix.isUnit_iff_isUnit_det _).1 pA.isUnit),
      Matrix.one_mul]

end Nlcg
