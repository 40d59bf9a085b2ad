import Verif.Spec.Run
import Mathlib.Data.List.Basic

/-! Consequences of the grammar of histories. -/

namespace Nlcg.Spec
open Arith
variable {α : Type} [Arith α] {restart : Int} {tol : α}

/-- iteration number of an event -/
def evIter : Ev α → Nat
  | .start i _ | .report i _ _ _ | .search i _ | .found i _ | .failed i _ | .steepest i _
  | .conjugate i _ => i

theorem Directions.iter {i : Nat} {f f' : Bool} {dirs : List (Ev α)} {s : α}
    (h : Directions restart i f dirs s f') : ∀ ev ∈ dirs, evIter ev = i := by
  cases h <;> simp [evIter]

theorem Trace.iter_ge {n i : Nat} {slope : α} {flag : Bool} {tr : List (Ev α)} {e : RunEnd}
    (h : Trace restart tol n i slope flag tr e) : ∀ ev ∈ tr, i ≤ evIter ev ∧ evIter ev < i + n := by
  induction h with
  | limit => simp
  | converged n i slope flag F S h1 => intro ev hev; simp at hev; rcases hev with rfl | rfl <;> simp [evIter]
  | slopeFailed n i slope flag F S h1 h2 =>
    intro ev hev; simp at hev; rcases hev with rfl | rfl | rfl | rfl <;> simp [evIter]
  | descentFailed n i slope F S h1 h2 =>
    intro ev hev; simp at hev; rcases hev with rfl | rfl | rfl | rfl <;> simp [evIter]
  | step n i slope flag F S flag1 dirs slope' flag' rest e h1 h2 h3 h4 h5 ih =>
    intro ev hev
    simp only [List.cons_append, List.nil_append, List.mem_cons, List.mem_append] at hev
    rcases hev with rfl | rfl | rfl | rfl | hev | hev
    · simp [evIter]
    · simp [evIter]
    · simp [evIter]
    · simp [evIter]
    · have := h4.iter ev hev; omega
    · have := ih ev hev; omega

/-- the run converged iff some iteration started below the tolerance -/
theorem Trace.converged_iff {n i : Nat} {slope : α} {flag : Bool} {tr : List (Ev α)} {e : RunEnd}
    (h : Trace restart tol n i slope flag tr e) :
    e = .converged ↔ ∃ j s, Ev.start j s ∈ tr ∧ (Arith.abs s <ᶠ tol) = true := by
  induction h with
  | limit => simp
  | converged n i slope flag F S h1 => simp [h1]
  | slopeFailed n i slope flag F S h1 h2 => simp [h1]
  | descentFailed n i slope F S h1 h2 => simp [h1]
  | step n i slope flag F S flag1 dirs slope' flag' rest e h1 h2 h3 h4 h5 ih =>
    rw [ih]
    constructor
    · rintro ⟨j, s, hm, hs⟩
      exact ⟨j, s, by simp [hm], hs⟩
    · rintro ⟨j, s, hm, hs⟩
      refine ⟨j, s, ?_, hs⟩
      simp only [List.cons_append, List.nil_append, List.mem_cons, List.mem_append] at hm
      rcases hm with hm | hm | hm | hm | hm | hm
      · simp only [Ev.start.injEq] at hm
        obtain ⟨-, rfl⟩ := hm
        rw [h1] at hs; simp at hs
      · simp at hm
      · simp at hm
      · simp at hm
      · cases h4 <;> simp at hm
      · exact hm

/-- where a raised restart flag comes from -/
def FlagSource (tr : List (Ev α)) (i : Nat) : Prop :=
  ∃ j, i = j + 1 ∧ (Ev.found j true ∈ tr ∨ ∃ c, Ev.conjugate j c ∈ tr ∧ (lit 0 <ᶠ c) = true)

theorem FlagSource.mono {tr tr' : List (Ev α)} {i : Nat} (h : ∀ ev ∈ tr, ev ∈ tr')
    (hf : FlagSource tr i) : FlagSource tr' i := by
  obtain ⟨j, rfl, hj⟩ := hf
  exact ⟨j, rfl, hj.imp (h _) (fun ⟨c, h1, h2⟩ => ⟨c, h _ h1, h2⟩)⟩

theorem Directions.flag {i : Nat} {f f' : Bool} {dirs : List (Ev α)} {s : α}
    (h : Directions restart i f dirs s f') (hf : f' = true) :
    f = true ∨ ∃ c, Ev.conjugate i c ∈ dirs ∧ (lit 0 <ᶠ c) = true := by
  cases h with
  | steepest => exact Or.inl hf
  | conjugate => simp at hf
  | rejected c s h1 h2 => exact Or.inr ⟨c, by simp, h2⟩

/-- a failed search after a raised flag ends the run -/
theorem Trace.slopeFailed_source {n i : Nat} {slope : α} {flag : Bool} {tr : List (Ev α)}
    {e : RunEnd} (h : Trace restart tol n i slope flag tr e) (j : Nat)
    (hj : Ev.failed j .slopeError ∈ tr) :
    ∃ s, Ev.start j s ∈ tr ∧ (lit 0 <ᶠ s) = true := by
  induction h with
  | limit => simp at hj
  | converged => simp at hj
  | slopeFailed n i slope flag F S h1 h2 =>
    simp only [List.mem_cons, reduceCtorEq, Ev.failed.injEq, and_true, List.not_mem_nil, or_false,
      false_or] at hj
    subst hj
    exact ⟨slope, by simp, h2⟩
  | descentFailed => simp at hj
  | step n i slope flag F S flag1 dirs slope' flag' rest e h1 h2 h3 h4 h5 ih =>
    have : Ev.failed j .slopeError ∉ dirs := by cases h4 <;> simp
    obtain ⟨s, a, b⟩ := ih (by simpa [this] using hj)
    exact ⟨s, by simp [a], b⟩

theorem Trace.descentFailed_source {n i : Nat} {slope : α} {flag : Bool} {tr : List (Ev α)}
    {e : RunEnd} (h : Trace restart tol n i slope flag tr e) :
    ∀ j, Ev.failed j .descentError ∈ tr →
      e = .failed ∧ (∃ pre, tr = pre ++ [.failed j .descentError]) ∧
      (j = i ∧ flag = true ∨ FlagSource tr j) := by
  induction h with
  | limit => simp
  | converged n i slope flag F S h1 => simp
  | slopeFailed n i slope flag F S h1 h2 => simp
  | descentFailed n i slope F S h1 h2 =>
    intro j hj
    simp at hj
    subst hj
    exact ⟨rfl, ⟨[.start j slope, .report j F S slope, .search j true], rfl⟩, Or.inl ⟨rfl, rfl⟩⟩
  | step n i slope flag F S flag1 dirs slope' flag' rest e h1 h2 h3 h4 h5 ih =>
    intro j hj
    have hj' : Ev.failed j .descentError ∈ rest := by
      simp only [List.cons_append, List.nil_append, List.mem_cons, List.mem_append] at hj
      rcases hj with hm | hm | hm | hm | hm | hm
      · simp at hm
      · simp at hm
      · simp at hm
      · simp at hm
      · cases h4 <;> simp at hm
      · exact hm
    obtain ⟨e1, ⟨pre, e2⟩, e3⟩ := ih j hj'
    refine ⟨e1, ⟨[.start i slope, .report i F S slope, .search i flag, .found i flag1] ++ dirs ++ pre, ?_⟩, Or.inr ?_⟩
    · rw [e2]; simp
    · rcases e3 with ⟨rfl, hf⟩ | hs
      · rcases h4.flag hf with hf | ⟨c, hc1, hc2⟩
        · exact ⟨i, rfl, Or.inl (by simp [hf])⟩
        · exact ⟨i, rfl, Or.inr ⟨c, by simp [hc1], hc2⟩⟩
      · exact hs.mono (by intro ev hev; simp [hev])

/-- the flag handed to the search of iteration `j` is up exactly if there is a source -/
theorem Trace.search_flag {n i : Nat} {slope : α} {flag : Bool} {tr : List (Ev α)}
    {e : RunEnd} (h : Trace restart tol n i slope flag tr e) :
    ∀ j f, Ev.search j f ∈ tr → (j = i ∧ f = flag) ∨ (i < j ∧ (f = true ↔ FlagSource tr j)) := by
  induction h with
  | limit => simp
  | converged n i slope flag F S h1 => simp
  | slopeFailed n i slope flag F S h1 h2 =>
    intro j f hj; simp at hj; exact Or.inl hj
  | descentFailed n i slope F S h1 h2 =>
    intro j f hj; simp at hj; left; simp [hj]
  | step n i slope flag F S flag1 dirs slope' flag' rest e h1 h2 h3 h4 h5 ih =>
    intro j f hj
    simp only [List.cons_append, List.nil_append, List.mem_cons, List.mem_append] at hj
    rcases hj with hm | hm | hm | hm | hm | hm
    · simp at hm
    · simp at hm
    · simp at hm; exact Or.inl hm
    · simp at hm
    · cases h4 <;> simp at hm
    · right
      have hgej := (h5.iter_ge _ hm).1
      simp only [evIter] at hgej
      refine ⟨by omega, ?_⟩
      have hsub : ∀ ev ∈ rest, ev ∈ [Ev.start i slope, Ev.report i F S slope, Ev.search i flag, Ev.found i flag1] ++ dirs ++ rest := by
        intro ev hev; simp [hev]
      rcases ih j f hm with ⟨rfl, rfl⟩ | ⟨hlt, hiff⟩
      · constructor
        · intro hf
          rcases h4.flag hf with hf | ⟨c, hc1, hc2⟩
          · exact ⟨i, rfl, Or.inl (by simp [hf])⟩
          · exact ⟨i, rfl, Or.inr ⟨c, by simp [hc1], hc2⟩⟩
        · rintro ⟨k, hk, hsrc⟩
          obtain rfl : i = k := by omega
          have hrest : ∀ ev ∈ rest, evIter ev ≠ i := by
            intro ev hev he; have := (h5.iter_ge ev hev).1; omega
          rcases hsrc with hs | ⟨c, hs, hc⟩
          · simp only [List.cons_append, List.nil_append, List.mem_cons, List.mem_append] at hs
            rcases hs with hs | hs | hs | hs | hs | hs
            · simp at hs
            · simp at hs
            · simp at hs
            · simp at hs
              subst hs
              cases h4 with
              | steepest => rfl
            · cases h4 <;> simp at hs
            · exact absurd rfl (hrest _ hs)
          · simp only [List.cons_append, List.nil_append, List.mem_cons, List.mem_append] at hs
            rcases hs with hs | hs | hs | hs | hs | hs
            · simp at hs
            · simp at hs
            · simp at hs
            · simp at hs
            · cases h4 with
              | steepest => simp at hs
              | conjugate s g1 g2 => simp at hs; subst hs; rw [g2] at hc; simp at hc
              | rejected => rfl
            · exact absurd rfl (hrest _ hs)
      · rw [hiff]
        constructor
        · exact FlagSource.mono hsub
        · rintro ⟨k, rfl, hsrc⟩
          refine ⟨k, rfl, ?_⟩
          have hk : k ≠ i := by omega
          rcases hsrc with hs | ⟨c, hs, hc⟩
          · left
            simp only [List.cons_append, List.nil_append, List.mem_cons, List.mem_append] at hs
            rcases hs with hs | hs | hs | hs | hs | hs
            · simp at hs
            · simp at hs
            · simp at hs
            · simp at hs; exact absurd hs.1 hk
            · exact absurd (h4.iter _ hs) hk
            · exact hs
          · right
            refine ⟨c, ?_, hc⟩
            simp only [List.cons_append, List.nil_append, List.mem_cons, List.mem_append] at hs
            rcases hs with hs | hs | hs | hs | hs | hs
            · simp at hs
            · simp at hs
            · simp at hs
            · simp at hs
            · exact absurd (h4.iter _ hs) hk
            · exact hs

/-- restart schedule -/
theorem Trace.schedule {n i : Nat} {slope : α} {flag : Bool} {tr : List (Ev α)}
    {e : RunEnd} (h : Trace restart tol n i slope flag tr e) :
    ∀ j f, Ev.found j f ∈ tr →
      ((∃ s, Ev.steepest j s ∈ tr) ↔ (restart ∣ (j : Int) ∨ f = true ∨
        ∃ c, Ev.conjugate j c ∈ tr ∧ (lit 0 <ᶠ c) = true)) ∧
      ((∃ c, Ev.conjugate j c ∈ tr) ↔ (¬ restart ∣ (j : Int) ∧ f = false)) := by
  induction h with
  | limit => simp
  | converged n i slope flag F S h1 => simp
  | slopeFailed n i slope flag F S h1 h2 => simp
  | descentFailed n i slope F S h1 h2 => simp
  | step n i slope flag F S flag1 dirs slope' flag' rest e h1 h2 h3 h4 h5 ih =>
    intro j f hj
    simp only [List.cons_append, List.nil_append, List.mem_cons, List.mem_append] at hj ⊢
    have hrest : ∀ ev ∈ rest, evIter ev ≠ i := by
      intro ev hev he; have := (h5.iter_ge ev hev).1; omega
    rcases hj with hm | hm | hm | hm | hm | hm
    · simp at hm
    · simp at hm
    · simp at hm
    · simp at hm
      obtain ⟨rfl, rfl⟩ := hm
      have hs : ∀ s, Ev.steepest j s ∉ rest := fun s hs => hrest _ hs rfl
      have hc : ∀ s, Ev.conjugate j s ∉ rest := fun s hs => hrest _ hs rfl
      cases h4 with
      | steepest _ s g =>
        simp only [List.mem_singleton, hs, hc, reduceCtorEq, false_or, or_false]
        refine ⟨⟨fun _ => g.imp id Or.inl, fun _ => ⟨_, rfl⟩⟩, ?_⟩
        rcases g with g | g <;> simp [g]
      | conjugate s g1 g2 =>
        simp only [List.mem_singleton, hs, hc, reduceCtorEq, false_or, or_false]
        refine ⟨⟨fun ⟨_, h⟩ => absurd h id, ?_⟩, ⟨fun _ => ⟨g1, trivial⟩, fun _ => ⟨_, rfl⟩⟩⟩
        rintro (h | ⟨c, hc1, hc2⟩)
        · exact absurd h g1
        · simp at hc1; subst hc1; rw [g2] at hc2; simp at hc2
      | rejected c s g1 g2 =>
        simp only [List.mem_cons, hs, hc, reduceCtorEq, false_or, or_false, List.not_mem_nil]
        exact ⟨⟨fun _ => Or.inr ⟨c, rfl, g2⟩, fun _ => ⟨_, rfl⟩⟩, ⟨fun _ => ⟨g1, trivial⟩, fun _ => ⟨_, rfl⟩⟩⟩
    · cases h4 <;> simp at hm
    · have hge := (h5.iter_ge _ hm).1
      simp only [evIter] at hge
      have hd : ∀ ev ∈ dirs, evIter ev ≠ j := fun ev hev he => by have := h4.iter ev hev; omega
      have hd1 : ∀ s, Ev.steepest j s ∉ dirs := fun s hs => hd _ hs rfl
      have hd2 : ∀ s, Ev.conjugate j s ∉ dirs := fun s hs => hd _ hs rfl
      simpa [hd1, hd2] using ih j f hm

end Nlcg.Spec
