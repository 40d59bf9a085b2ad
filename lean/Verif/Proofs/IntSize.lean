import Verif.Model.IntSize
import Verif.Spec.Memory
import Verif.Proofs.Parallel
import Mathlib.Tactic.NormNum
import Mathlib.Tactic.Linarith

namespace Nlcg
open Spec
variable {α : Type}

theorem cint_ok {x : ℤ} (h1 : -2 ^ 31 ≤ x) (h2 : x < 2 ^ 31) : cint x = .ok x := if_pos ⟨h1, h2⟩

theorem cint_ub {x : ℤ} (h : 2 ^ 31 ≤ x) : cint x = .ub := if_neg fun ⟨_, h2⟩ => absurd h2 (by omega)

theorem cint_cases (x : ℤ) : cint x = .ok x ∨ cint x = .ub := by
  unfold cint
  split
  · exact .inl rfl
  · exact .inr rfl

/-- after an addition or multiplication something undefined happens in any case -/
theorem cint_bind_ub {β : Type} {x : ℤ} {f : ℤ → Res β} (h : f x = .ub) : (cint x >>= f) = .ub := by
  rcases cint_cases x with e | e
  · rw [e]; exact h
  · rw [e]; rfl

theorem res_ok_bind {β γ : Type} (x : β) (f : β → Res γ) : (Res.ok x >>= f) = f x := rfl

theorem cint_bind_ok {β : Type} {x : ℤ} {f : ℤ → Res β} (h1 : -2 ^ 31 ≤ x) (h2 : x < 2 ^ 31) :
    (cint x >>= f) = f x := by rw [cint_ok h1 h2]; rfl

theorem geamIndexI_ok {ld i j : ℕ} (h : i + ld * j < 2 ^ 31) :
    geamIndexI ld i j = .ok ((i + ld * j : ℕ) : ℤ) := by
  unfold geamIndexI mulI addI
  have h1 : (ld : ℤ) * j = ((ld * j : ℕ) : ℤ) := by push_cast; ring
  have h2 : (0 : ℤ) ≤ ((ld * j : ℕ) : ℤ) := by omega
  have h3 : ((ld * j : ℕ) : ℤ) < 2 ^ 31 := by omega
  rw [h1, cint_bind_ok (by omega) h3, cint_ok (by omega) (by omega)]
  push_cast
  rfl

theorem geamIndexI_ub {ld i j : ℕ} (h : 2 ^ 31 ≤ i + ld * j) : geamIndexI ld i j = .ub := by
  unfold geamIndexI mulI addI
  refine cint_bind_ub (cint_ub ?_)
  have h1 : (ld : ℤ) * j = ((ld * j : ℕ) : ℤ) := by push_cast; ring
  omega

/-- a loop whose iterations end normally or are undefined, and one is undefined -/
theorem forEach_ub {ι : Type} (P : Mem α → Prop) (body : ι → MemM α Unit) : ∀ (l : List ι) (m : Mem α),
    (∀ x ∈ l, ∀ m, P m → (∃ m', body x m = (.ok (), m') ∧ P m') ∨ (body x m).1 = .ub) →
    (∃ x ∈ l, ∀ m, P m → (body x m).1 = .ub) → P m → (forEach l body m).1 = .ub
  | [], _, _, ⟨x, hx, _⟩, _ => by simp at hx
  | y :: l, m, h, ⟨x, hx, hub⟩, hm => by
    rw [forEach, SM.bind_apply]
    rcases h y (by simp) m hm with ⟨m', e, hm'⟩ | e
    · rw [e]
      rcases List.mem_cons.1 hx with rfl | hx
      · have := hub m hm
        rw [e] at this
        cases this
      · exact forEach_ub P body l m' (fun z hz => h z (by simp [hz])) ⟨x, hx, hub⟩ hm'
    · rcases hb : body y m with ⟨r, m'⟩
      rw [hb] at e
      simp only at e
      subst e
      rfl

theorem lift_ok_bind {β γ : Type} (x : β) (f : β → MemM α γ) : (SM.lift (.ok x) >>= f : MemM α γ) = f x := by
  funext m
  rfl

theorem lift_ub_bind {β γ : Type} (f : β → MemM α γ) (m : Mem α) : ((SM.lift .ub >>= f : MemM α γ) m).1 = .ub := rfl

/-- one iteration of `geam` with defined indices -/
theorem geamBody_ok [Add α] [Mul α] {m : Mem α} {ra rb rc : Res ℤ} {ia ib ic : ℕ} {A B C : ℕ} {x y : α} {alpha beta : α}
    (ha : ra = .ok (ia : ℤ)) (hb : rb = .ok (ib : ℤ)) (hc : rc = .ok (ic : ℤ)) (hx : m (A + ia) = some x)
    (hy : m (B + ib) = some y) :
    (do let ia ← SM.lift ra
        let x ← load (A + ia.toNat)
        let ib ← SM.lift rb
        let y ← load (B + ib.toNat)
        let ic ← SM.lift rc
        store (C + ic.toNat) (alpha * x + beta * y) : MemM α Unit) m = store (C + ic) (alpha * x + beta * y) m := by
  subst ha hb hc
  rw [lift_ok_bind, Int.toNat_natCast, load_bind hx, lift_ok_bind, Int.toNat_natCast, load_bind hy, lift_ok_bind,
    Int.toNat_natCast]

/-- one iteration of `geam` with an undefined index -/
theorem geamBody_ub [Add α] [Mul α] {m : Mem α} {ra rb rc : Res ℤ} {ia : ℕ} {A B C : ℕ} {x : α} {alpha beta : α}
    (h : ra = .ub ∨ ra = .ok (ia : ℤ) ∧ m (A + ia) = some x ∧ rb = .ub) :
    ((do let ia ← SM.lift ra
         let x ← load (A + ia.toNat)
         let ib ← SM.lift rb
         let y ← load (B + ib.toNat)
         let ic ← SM.lift rc
         store (C + ic.toNat) (alpha * x + beta * y) : MemM α Unit) m).1 = .ub := by
  rcases h with rfl | ⟨rfl, hx, rfl⟩
  · rfl
  · rw [lift_ok_bind, Int.toNat_natCast, load_bind hx]
    rfl

theorem scanI_ok : ∀ (l : List ℕ) (acc : ℕ), acc + l.sum < 2 ^ 31 →
    scanI acc l = .ok (((acc + l.sum : ℕ) : ℤ), (exclScan acc l).map fun n : ℕ => (n : ℤ))
  | [], acc, _ => rfl
  | n :: l, acc, h => by
    rw [List.sum_cons] at h
    have e : (acc : ℤ) + n = ((acc + n : ℕ) : ℤ) := by push_cast; ring
    have ih := scanI_ok l (acc + n) (by omega)
    simp only [scanI, addI, e]
    rw [cint_bind_ok (by omega) (by omega), ih]
    simp only [List.sum_cons, exclScan, List.map_cons, ← Nat.add_assoc]
    rfl

theorem scanI_ub : ∀ (l : List ℕ) (acc : ℕ), acc < 2 ^ 31 → 2 ^ 31 ≤ acc + l.sum → scanI acc l = .ub
  | [], acc, h1, h2 => by simp at h2; omega
  | n :: l, acc, h1, h => by
    rw [List.sum_cons] at h
    have e : (acc : ℤ) + n = ((acc + n : ℕ) : ℤ) := by push_cast; ring
    simp only [scanI, addI, e]
    by_cases hn : acc + n < 2 ^ 31
    · rw [cint_bind_ok (by omega) (by omega), scanI_ub l (acc + n) hn (by omega)]
      rfl
    · rw [cint_ub (by omega)]
      rfl

theorem blockOffsetsI_ok : ∀ (L : List (List ℕ)) (acc : ℕ), acc + (L.map List.sum).sum < 2 ^ 31 →
    blockOffsetsI acc L = .ok (((acc + (L.map List.sum).sum : ℕ) : ℤ),
      (blockOffsets acc L).map fun l => l.map fun n : ℕ => (n : ℤ))
  | [], acc, _ => rfl
  | l :: L, acc, h => by
    simp only [List.map_cons, List.sum_cons] at h
    have ih := blockOffsetsI_ok L (acc + l.sum) (by omega)
    rw [blockOffsetsI, scanI_ok l acc (by omega)]
    show (blockOffsetsI ((acc + l.sum : ℕ) : ℤ) L >>= _) = _
    rw [ih]
    simp only [List.map_cons, List.sum_cons, blockOffsets, ← Nat.add_assoc]
    rfl

theorem blockOffsetsI_ub : ∀ (L : List (List ℕ)) (acc : ℕ), acc < 2 ^ 31 → 2 ^ 31 ≤ acc + (L.map List.sum).sum →
    blockOffsetsI acc L = .ub
  | [], acc, h1, h2 => by simp at h2; omega
  | l :: L, acc, h1, h => by
    simp only [List.map_cons, List.sum_cons] at h
    rw [blockOffsetsI]
    by_cases hl : acc + l.sum < 2 ^ 31
    · rw [scanI_ok l acc hl]
      show (blockOffsetsI ((acc + l.sum : ℕ) : ℤ) L >>= _) = _
      rw [blockOffsetsI_ub L (acc + l.sum) hl (by omega)]
      rfl
    · rw [scanI_ub l acc h1 (by omega)]
      rfl

end Nlcg
