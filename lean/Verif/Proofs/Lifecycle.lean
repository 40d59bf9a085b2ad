import Verif.Spec.Lifecycle
import Mathlib.Tactic.Common

/-! Histories of a process that uses the library. -/

namespace Nlcg
open Spec

variable {r : KokkosRules} {magma : Bool}

theorem live_append (s : Runtime) (l l' : List Action) :
    live r magma s (l ++ l') = (live r magma s l).bind fun s' => live r magma s' l' := by
  induction l generalizing s with
  | nil => rfl
  | cons a l ih =>
    rw [List.cons_append, live, live]
    rcases act r magma s a with s' | e | _ | _
    · exact ih s'
    all_goals rfl

theorem act_uses {s : Runtime} {a : Action} (ha : Uses a) : act r magma s a = useKokkos s := by
  rcases ha with rfl | rfl <;> rfl

theorem live_uses {m : Nat} {u : List Action} (hu : ∀ a ∈ u, Uses a) : live r magma ⟨.up, m⟩ u = .ok ⟨.up, m⟩ := by
  induction u with
  | nil => rfl
  | cons a u ih =>
    rw [live, act_uses (hu a (by simp))]
    exact ih fun a h => hu a (by simp [h])

/-- the library starts a Kokkos that may be started -/
theorem act_initialize {k : Kokkos} {m : Nat} (hk : k = .off ∨ k = .ended ∧ r.again = true) :
    act r magma ⟨k, m⟩ .start = .ok ⟨.up, if magma then m + 1 else m⟩ := by
  rcases hk with rfl | ⟨rfl, h⟩ <;> cases magma <;> simp_all [act, libInitialize, kokkosInit, initMagma, Res.bind]

theorem act_finalize {m : Nat} : act r magma ⟨.up, if magma then m + 1 else m⟩ .stop = .ok ⟨.ended, m⟩ := by
  cases magma <;> simp [act, libFinalize, kokkosFinalize, finalizeMagma, Res.bind]

theorem live_session {k : Kokkos} {m : Nat} (hk : k = .off ∨ k = .ended ∧ r.again = true) {l : List Action} (h : Session l) :
    live r magma ⟨k, m⟩ l = .ok ⟨.ended, m⟩ := by
  obtain ⟨u, hu, rfl⟩ := h
  rw [List.cons_append, live, act_initialize hk]
  show live r magma _ (u ++ [.stop]) = _
  rw [live_append, live_uses hu]
  show live r magma _ [.stop] = _
  rw [live, act_finalize]
  rfl

theorem live_prefix {s t : Runtime} {l p : List Action} (h : live r magma s l = .ok t) (hp : p <+: l) :
    ∃ t', live r magma s p = .ok t' := by
  obtain ⟨q, rfl⟩ := hp
  rw [live_append] at h
  cases hp : live r magma s p with
  | ok s' => exact ⟨s', rfl⟩
  | _ => rw [hp] at h; cases h

/-! ## A Kokkos that tolerates nothing -/

theorem strict_ended {m : Nat} {l : List Action} {t : Runtime} (h : live strict magma ⟨.ended, m⟩ l = .ok t) : l = [] := by
  cases l with
  | nil => rfl
  | cons a l =>
    exfalso
    rw [live] at h
    cases a <;> cases magma <;>
      simp [act, libInitialize, libFinalize, kokkosInit, kokkosFinalize, strict, useKokkos, initMagma, Res.bind] at h

theorem strict_up {m : Nat} {l : List Action} {t : Runtime} (h : live strict magma ⟨.up, m⟩ l = .ok t) :
    ∃ u stop, (∀ a ∈ u, Uses a) ∧
      (stop = [] ∨ stop = [.hostFinalize] ∨ stop = [.stop] ∧ (magma = true → m ≠ 0)) ∧ l = u ++ stop := by
  induction l with
  | nil => exact ⟨[], [], by simp, .inl rfl, rfl⟩
  | cons a l ih =>
    rw [live] at h
    have go : Uses a → ∃ u stop, (∀ a ∈ u, Uses a) ∧
        (stop = [] ∨ stop = [.hostFinalize] ∨ stop = [.stop] ∧ (magma = true → m ≠ 0)) ∧ a :: l = u ++ stop := fun ha => by
      rw [act_uses ha] at h
      obtain ⟨u, stop, h1, h2, h3⟩ := ih h
      exact ⟨a :: u, stop, by simpa [ha] using h1, h2, by rw [h3]; rfl⟩
    cases a
    case solve => exact go (.inl rfl)
    case hostUse => exact go (.inr rfl)
    case start =>
      cases magma <;> simp [act, libInitialize, kokkosInit, strict, initMagma, Res.bind] at h
    case hostInitialize => simp [act, kokkosInit, strict, Res.bind] at h
    case hostFinalize =>
      simp only [act, kokkosFinalize, Res.bind] at h
      rw [strict_ended h]
      exact ⟨[], [.hostFinalize], by simp, .inr (.inl rfl), rfl⟩
    case stop =>
      cases magma with
      | false =>
        simp only [act, libFinalize, kokkosFinalize, Res.bind, Bool.false_eq_true, if_false] at h
        rw [strict_ended h]
        exact ⟨[], [.stop], by simp, .inr (.inr ⟨rfl, by simp⟩), rfl⟩
      | true =>
        simp only [act, libFinalize, kokkosFinalize, Res.bind, if_true, finalizeMagma] at h
        by_cases hm : m = 0
        · simp [hm] at h
        · simp only [hm, if_false] at h
          rw [strict_ended h]
          exact ⟨[], [.stop], by simp, .inr (.inr ⟨rfl, fun _ => hm⟩), rfl⟩

theorem strict_new {l : List Action} {t : Runtime} (h : live strict magma newProcess l = .ok t) : StrictlyFine magma l := by
  cases l with
  | nil => exact .inl rfl
  | cons a l =>
    rw [live, newProcess] at h
    cases a
    case start =>
      rw [act_initialize (.inl rfl)] at h
      obtain ⟨u, stop, h1, h2, h3⟩ := strict_up h
      refine .inr ⟨_, u, stop, .inl rfl, h1, ?_, by rw [h3]; rfl⟩
      rcases h2 with h2 | h2 | ⟨h2, -⟩
      · exact .inl h2
      · exact .inr (.inl h2)
      · exact .inr (.inr ⟨h2, fun _ => rfl⟩)
    case hostInitialize =>
      obtain ⟨u, stop, h1, h2, h3⟩ := strict_up (m := 0) h
      refine .inr ⟨_, u, stop, .inr rfl, h1, ?_, by rw [h3]; rfl⟩
      rcases h2 with h2 | h2 | ⟨h2, h4⟩
      · exact .inl h2
      · exact .inr (.inl h2)
      · exact .inr (.inr ⟨h2, fun hm => absurd rfl (h4 hm)⟩)
    all_goals cases magma <;> simp [act, libFinalize, kokkosFinalize, strict, useKokkos, Res.bind] at h

theorem strict_fine {l : List Action} (h : StrictlyFine magma l) : ∃ t, live strict magma newProcess l = .ok t := by
  rcases h with rfl | ⟨start, u, stop, h1, hu, h2, rfl⟩
  · exact ⟨_, rfl⟩
  · have hs : ∃ m, live strict magma newProcess [start] = .ok ⟨.up, m⟩ ∧ (magma = true → start = .start → m ≠ 0) := by
      rcases h1 with rfl | rfl
      · refine ⟨if magma then 1 else 0, ?_, fun h _ => by simp [h]⟩
        rw [live, newProcess, act_initialize (.inl rfl)]
        rfl
      · exact ⟨0, rfl, fun _ h => by cases h⟩
    obtain ⟨m, h3, h4⟩ := hs
    rw [show start :: u ++ stop = [start] ++ (u ++ stop) from rfl, live_append, h3]
    show ∃ t, live strict magma _ (u ++ stop) = _
    rw [live_append, live_uses hu]
    show ∃ t, live strict magma _ stop = _
    rcases h2 with rfl | rfl | ⟨rfl, h5⟩
    · exact ⟨_, rfl⟩
    · exact ⟨_, rfl⟩
    · cases magma with
      | false => exact ⟨_, rfl⟩
      | true =>
        have := h4 rfl (h5 rfl)
        simp [live, act, libFinalize, kokkosFinalize, Res.bind, finalizeMagma, this]

end Nlcg
