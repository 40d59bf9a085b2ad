import Verif.Spec.Sizes
import Mathlib.Tactic.SplitIfs
import Mathlib.Tactic.Basic

/-! Which sizes let the computation of the first direction succeed. -/

namespace Nlcg
open Spec

theorem touchMat_self (s : Extent) : touchMat s s.rows s.cols = .ok () := by simp [touchMat]

theorem restartSizes_ok {k : KSizes} (hq : NothingFails k) (hf : Fitting k) : restartSizes k = .ok () := by
  obtain ⟨X, hx, ek, op, chol⟩ := k
  obtain ⟨rfl, rfl⟩ := hq
  obtain ⟨h1, h2⟩ := hf
  dsimp only at h1 h2
  subst h1 h2
  simp [restartSizes, opSizes, lmultSizes, innerSizes, solveSizes, transformSizes, gradxSizes, scaleColsSizes, addSizes,
    precondgxSizes, gEtaSizes, deltaEtaSizes, innerhSizes, touchMat, touchVec, touchDiag]

/-- nothing but undefined behaviour or success -/
def OkOrUb {β : Type} (r : Res β) : Prop := r = .ub ∨ ∃ x, r = .ok x

theorem OkOrUb.bind {β γ : Type} {r : Res β} {f : β → Res γ} (h : OkOrUb r) (hf : ∀ x, OkOrUb (f x)) :
    OkOrUb (r >>= f) := by
  rcases h with rfl | ⟨x, rfl⟩
  · exact Or.inl rfl
  · exact hf x

theorem okOrUb_ok {β : Type} (x : β) : OkOrUb (Res.ok x) := Or.inr ⟨x, rfl⟩

theorem touchMat_okOrUb (s : Extent) (m n : ℕ) : OkOrUb (touchMat s m n) := by
  rw [touchMat]; split_ifs
  · exact okOrUb_ok _
  · exact Or.inl rfl

theorem touchVec_okOrUb (l n : ℕ) : OkOrUb (touchVec l n) := by
  rw [touchVec]; split_ifs
  · exact okOrUb_ok _
  · exact Or.inl rfl

theorem touchDiag_okOrUb (s : Extent) (n : ℕ) : OkOrUb (touchDiag s n) := by
  rw [touchDiag]; split_ifs
  · exact okOrUb_ok _
  · exact Or.inl rfl

theorem restartSizes_okOrUb {k : KSizes} (hq : NothingFails k) : OkOrUb (restartSizes k) := by
  obtain ⟨X, hx, ek, op, chol⟩ := k
  obtain ⟨rfl, rfl⟩ := hq
  simp only [restartSizes, opSizes, lmultSizes, innerSizes, solveSizes, transformSizes, gradxSizes, scaleColsSizes, addSizes,
    precondgxSizes, gEtaSizes, deltaEtaSizes, innerhSizes, Res.bind_ok, Res.pure_eq, bind_assoc]
  repeat' first
    | exact okOrUb_ok _
    | exact touchMat_okOrUb _ _ _
    | exact touchVec_okOrUb _ _
    | exact touchDiag_okOrUb _ _
    | (refine OkOrUb.bind (touchMat_okOrUb _ _ _) fun _ => ?_)
    | (refine OkOrUb.bind (touchVec_okOrUb _ _) fun _ => ?_)
    | (refine OkOrUb.bind (touchDiag_okOrUb _ _) fun _ => ?_)
    | (refine OkOrUb.bind ?_ fun _ => ?_)
    | split_ifs

theorem touchMat_iff {s : Extent} {m n : ℕ} {u : Unit} :
    touchMat s m n = .ok u ↔ m = 0 ∨ n = 0 ∨ (m ≤ s.rows ∧ n ≤ s.cols) := by
  rw [touchMat]; split_ifs with h <;> simp [h]

theorem touchVec_iff {l n : ℕ} {u : Unit} : touchVec l n = .ok u ↔ n ≤ l := by
  rw [touchVec]; split_ifs with h <;> simp [h]

theorem touchDiag_iff {s : Extent} {n : ℕ} {u : Unit} :
    touchDiag s n = .ok u ↔ n ≤ s.rows ∧ n ≤ s.cols := by
  rw [touchDiag]; split_ifs with h <;> simp [h]

/-- success means that the sizes fit -/
theorem restartSizes_inv {k : KSizes} (hq : NothingFails k) (hr : 0 < k.X.rows) (hc : 0 < k.X.cols)
    (h : restartSizes k = .ok ()) : Fitting k := by
  obtain ⟨⟨n, b⟩, ⟨n', b'⟩, ek, op, chol⟩ := k
  obtain ⟨rfl, rfl⟩ := hq
  simp only [restartSizes, opSizes, lmultSizes, innerSizes, solveSizes, transformSizes, gradxSizes, scaleColsSizes, addSizes,
    precondgxSizes, gEtaSizes, deltaEtaSizes, innerhSizes, Res.bind_ok, Res.pure_eq, bind_assoc, touchMat_self,
    Res.bind_eq_ok, touchMat_iff, touchVec_iff, touchDiag_iff, exists_const] at h
  simp only at hr hc
  obtain ⟨-, h2, -, -, -, -, h7, -, -, -, -, h12, -, -, -, h16, h17, -, -, h20, -⟩ := h
  obtain ⟨rfl, rfl, rfl⟩ : n' = n ∧ b' = b ∧ ek = b := by omega
  exact ⟨rfl, rfl⟩

theorem restartAllSizes_ok : ∀ {ks : List KSizes}, (∀ k ∈ ks, NothingFails k ∧ Fitting k) → restartAllSizes ks = .ok ()
  | [], _ => rfl
  | k :: ks, h => by
    rw [restartAllSizes, restartSizes_ok (h k (by simp)).1 (h k (by simp)).2, Res.bind_ok,
      restartAllSizes_ok fun q hq => h q (by simp [hq])]

theorem restartAllSizes_ub : ∀ {ks : List KSizes}, (∀ k ∈ ks, NothingFails k) →
    (∃ k ∈ ks, 0 < k.X.rows ∧ 0 < k.X.cols ∧ ¬ Fitting k) → restartAllSizes ks = .ub
  | [], _, h => by simp at h
  | k :: ks, hq, h => by
    rw [restartAllSizes]
    rcases restartSizes_okOrUb (hq k (by simp)) with e | ⟨u, e⟩
    · rw [e]; rfl
    · rw [e, Res.bind_ok]
      obtain ⟨q, hm, h1, h2, h3⟩ := h
      rcases List.mem_cons.1 hm with rfl | hm
      · exact absurd (restartSizes_inv (hq q (by simp)) h1 h2 e) h3
      · exact restartAllSizes_ub (fun q hq' => hq q (by simp [hq'])) ⟨q, hm, h1, h2, h3⟩

end Nlcg
