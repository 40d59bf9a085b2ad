import Verif.Proofs.Lifecycle
import Mathlib.Tactic.IntervalCases

/-!
# C125: starting and stopping the library
-/

namespace Nlcg
open Spec

variable {r : KokkosRules} {magma : Bool}

/-- **C125 (part).** With every version of Kokkos, with and without MAGMA: one session goes well, however many calls it
has; so does everything up to any point of it; and in the end Kokkos and MAGMA are stopped.
Missing: hosts that start Kokkos themselves, see below. -/
theorem C125_session_partial {l : List Action} (h : Session l) :
    live r magma newProcess l = .ok ⟨.ended, 0⟩ ∧ ∀ p, p <+: l → ∃ s, live r magma newProcess p = .ok s := by
  have h1 : live r magma newProcess l = .ok ⟨.ended, 0⟩ := live_session (.inl rfl) h
  exact ⟨h1, fun p hp => live_prefix h1 hp⟩

/-- **C125 (part).** If Kokkos may be started again: any number of sessions go well. -/
theorem C125_sessions_partial (hr : r.again = true) {ls : List (List Action)} (h : ∀ l ∈ ls, Session l) (hne : ls ≠ []) :
    live r magma newProcess ls.flatten = .ok ⟨.ended, 0⟩ := by
  have rest : ∀ ls : List (List Action), (∀ l ∈ ls, Session l) → live r magma ⟨.ended, 0⟩ ls.flatten = .ok ⟨.ended, 0⟩ := by
    intro ls
    induction ls with
    | nil => exact fun _ => rfl
    | cons l ls ih =>
      intro h
      rw [List.flatten_cons, live_append, live_session (.inr ⟨rfl, hr⟩) (h l (by simp))]
      exact ih fun l' h' => h l' (by simp [h'])
  cases ls with
  | nil => exact absurd rfl hne
  | cons l ls =>
    rw [List.flatten_cons, live_append, newProcess, live_session (.inl rfl) (h l (by simp))]
    exact rest ls fun l' h' => h l' (by simp [h'])

/-- **C125**: with a Kokkos that tolerates nothing, these are all the histories that go well. -/
theorem C125_strict (l : List Action) : (∃ s, live strict magma newProcess l = .ok s) ↔ StrictlyFine magma l :=
  ⟨fun ⟨_, h⟩ => strict_new h, strict_fine⟩

/-- the host starts Kokkos for its own use, and uses the library -/
def sharedKokkos : List Action := [.hostInitialize, .hostUse, .start, .solve, .stop, .hostUse, .hostFinalize]

/-- **C125 is false of hosts that use Kokkos themselves**: library and host each use Kokkos orderly, but no version of Kokkos
lets this end well, since `initialize` and `finalize` do not ask whether Kokkos is running. -/
theorem C125_not_shared : LibraryOrderly sharedKokkos ∧ HostOrderly sharedKokkos ∧
    ∀ r magma, live r magma newProcess sharedKokkos = .abort := by
  have split : ∀ p a q, sharedKokkos = p ++ a :: q →
      ∃ i < 7, p = sharedKokkos.take i ∧ sharedKokkos[i]? = some a := by
    intro p a q h
    refine ⟨p.length, ?_, by rw [h]; simp, by rw [h]; simp⟩
    have := congrArg List.length h
    simp only [sharedKokkos, List.length_cons, List.length_nil, List.length_append] at this
    omega
  refine ⟨?_, ?_, ?_⟩
  · rintro p a q h
    obtain ⟨i, hi, rfl, ha⟩ := split p a q h
    clear h
    interval_cases i <;> simp [sharedKokkos] at ha <;> subst ha <;> decide
  · rintro p a q h
    obtain ⟨i, hi, rfl, ha⟩ := split p a q h
    clear h
    interval_cases i <;> simp [sharedKokkos] at ha <;> subst ha <;> decide
  · rintro ⟨a, b, c⟩ m
    cases a <;> cases b <;> cases c <;> cases m <;> rfl

/-! ## Examples -/

example : Session [.start, .solve, .hostUse, .solve, .stop] :=
  ⟨[.solve, .hostUse, .solve], by simp [Uses], rfl⟩

/-- a solver call without `initialize` -/
example : ¬ StrictlyFine true [.solve] := by
  rw [← C125_strict]
  rintro ⟨s, h⟩
  cases h

/-- two sessions -/
example : ¬ StrictlyFine false [.start, .solve, .stop, .start] := by
  rw [← C125_strict]
  rintro ⟨s, h⟩
  cases h

/-- the host starts and stops Kokkos and uses the library without its `initialize` -/
example : StrictlyFine true [.hostInitialize, .hostUse, .solve, .hostFinalize] :=
  .inr ⟨_, [.hostUse, .solve], _, .inr rfl, by simp [Uses], .inr (.inl rfl), rfl⟩

end Nlcg
