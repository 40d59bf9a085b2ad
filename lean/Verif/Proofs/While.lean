import Verif.Model.Basic
import Mathlib.Logic.Function.Iterate

/-! Helper lemmas on `whileFuel`. -/

namespace Nlcg
variable {σ : Type} {g : σ → Bool} {b : σ → σ}

theorem whileFuel_guard {n : Nat} {s t : σ} (h : whileFuel g b n s = some t) : g t = false := by
  induction n generalizing s with
  | zero => unfold whileFuel at h; split at h <;> simp_all
  | succ n ih =>
    unfold whileFuel at h
    split at h
    · exact ih h
    · simp_all

theorem whileFuel_iterate {n : Nat} {s t : σ} (h : whileFuel g b n s = some t) :
    ∃ k ≤ n, t = b^[k] s ∧ ∀ i < k, g (b^[i] s) = true := by
  induction n generalizing s with
  | zero =>
    unfold whileFuel at h
    split at h
    · simp at h
    · exact ⟨0, Nat.le_refl _, by simp_all, by simp⟩
  | succ n ih =>
    unfold whileFuel at h
    split at h
    · rename_i hg
      obtain ⟨k, hk, ht, hi⟩ := ih h
      refine ⟨k + 1, by omega, by simpa using ht, ?_⟩
      intro i hik
      cases i with
      | zero => simpa using hg
      | succ i => simpa using hi i (by omega)
    · exact ⟨0, by omega, by simp_all, by simp⟩

/-- If the guard is false at some iterate `k ≤ n`, the loop ends, at the first such one. -/
theorem whileFuel_of_exit {n k : Nat} {s : σ} (hk : k ≤ n) (hg : g (b^[k] s) = false) :
    ∃ j ≤ k, whileFuel g b n s = some (b^[j] s) ∧ g (b^[j] s) = false ∧
      ∀ i < j, g (b^[i] s) = true := by
  induction k generalizing n s with
  | zero =>
    refine ⟨0, Nat.le_refl _, ?_, hg, by simp⟩
    have : g s = false := hg
    cases n <;> simp [whileFuel, this]
  | succ k ih =>
    obtain ⟨n, rfl⟩ : ∃ m, n = m + 1 := ⟨n - 1, by omega⟩
    cases hs : g s with
    | false => exact ⟨0, by omega, by simp [whileFuel, hs], hs, by simp⟩
    | true =>
      obtain ⟨j, hj, hw, hgj, hi⟩ := ih (n := n) (s := b s) (by omega) (by simpa using hg)
      refine ⟨j + 1, by omega, by simp [whileFuel, hs, hw], by simpa using hgj, ?_⟩
      intro i hij
      cases i with
      | zero => simpa using hs
      | succ i => simpa using hi i (by omega)

theorem whileFuel_mono {n m : Nat} {s t : σ} (hnm : n ≤ m) (h : whileFuel g b n s = some t) :
    whileFuel g b m s = some t := by
  induction n generalizing m s with
  | zero =>
    unfold whileFuel at h
    cases hs : g s <;> simp_all
    cases m <;> simp [whileFuel, hs]
  | succ n ih =>
    obtain ⟨m, rfl⟩ : ∃ k, m = k + 1 := ⟨m - 1, by omega⟩
    unfold whileFuel at h ⊢
    cases hs : g s <;> simp_all

end Nlcg
