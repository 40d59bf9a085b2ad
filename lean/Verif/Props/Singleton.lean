import Verif.Model.Singleton
import Mathlib.Tactic.Common

/-!
# Properties of the only instance
-/

namespace Nlcg

/-! ## C81 -/

/-- the thread runs the function given to `call_once` -/
def OncePc.inside : OncePc → Prop
  | .creating => True
  | .created _ => True
  | .stored => True
  | _ => False

/-- what holds in all states -/
structure OnceInv (s : OnceState) : Prop where
  fresh : s.flag = .fresh → (∀ t, ¬(s.pc t).inside ∧ s.pc t ≠ .leaving) ∧ s.objects = 0 ∧ s.inst = none ∧ s.handed = []
  running : ∀ t, s.flag = .running t → (s.pc t).inside ∧ (∀ u, u ≠ t → ¬(s.pc u).inside) ∧
    (∀ u, s.pc u ≠ .leaving) ∧ s.handed = [] ∧
    match s.pc t with
    | .creating => s.objects = 0 ∧ s.inst = none
    | .created p => s.objects = 1 ∧ p = 0 ∧ s.inst = none
    | _ => s.objects = 1 ∧ s.inst = some 0
  done : s.flag = .done → (∀ t, ¬(s.pc t).inside) ∧ s.objects = 1 ∧ s.inst = some 0 ∧ ∀ p ∈ s.handed, p = 0
  good : s.bad = false

theorem onceInv_init : OnceInv .init where
  fresh := fun _ => ⟨fun _ => ⟨fun h => h, by simp [OnceState.init]⟩, rfl, rfl, rfl⟩
  running := fun t h => by simp [OnceState.init] at h
  done := fun h => by simp [OnceState.init] at h
  good := rfl

theorem onceInv_step {s : OnceState} (h : OnceInv s) (t : ℕ) (th : Bool) : OnceInv (onceStep s t th) := by
  obtain ⟨hf, hr, hd, hg⟩ := h
  have upd : ∀ (q : OncePc) (u : ℕ), Function.update s.pc t q u = if u = t then q else s.pc u := by
    intro q u; by_cases hu : u = t <;> simp [hu]
  unfold onceStep
  cases hp : s.pc t with
  | idle =>
    dsimp only
    refine ⟨fun e => ?_, fun u e => ?_, fun e => ?_, hg⟩
    · obtain ⟨h1, h2⟩ := hf e
      refine ⟨fun u => ?_, h2⟩
      simp only [upd]; split
      · simp [OncePc.inside]
      · exact h1 u
    · obtain ⟨h1, h2, h3, h4, h5⟩ := hr u e
      have hne : u ≠ t := by rintro rfl; rw [hp] at h1; exact h1
      refine ⟨by simp only [upd, if_neg hne]; exact h1, fun w hw => ?_, fun w => ?_, h4, ?_⟩
      · simp only [upd]; split
        · simp [OncePc.inside]
        · exact h2 w hw
      · simp only [upd]; split
        · simp
        · exact h3 w
      · simp only [upd, if_neg hne]; exact h5
    · obtain ⟨h1, h2⟩ := hd e
      refine ⟨fun u => ?_, h2⟩
      simp only [upd]; split
      · simp [OncePc.inside]
      · exact h1 u
  | entered =>
    cases hfl : s.flag with
    | fresh =>
      dsimp only
      obtain ⟨h1, h2, h3, h4⟩ := hf hfl
      refine ⟨fun e => by simp at e, fun u e => ?_, fun e => by simp at e, hg⟩
      obtain rfl : t = u := by simpa using e
      refine ⟨by simp [OncePc.inside], fun w hw => ?_, fun w => ?_, h4, ?_⟩
      · simp only [upd, if_neg hw]; exact (h1 w).1
      · simp only [upd]; split
        · simp
        · exact (h1 w).2
      · simp [h2, h3]
    | running u => exact ⟨hf, hr, hd, hg⟩
    | done =>
      dsimp only
      obtain ⟨h1, h2⟩ := hd hfl
      refine ⟨fun e => by simp at e, fun u e => by simp at e, fun _ => ⟨fun u => ?_, h2⟩, hg⟩
      simp only [upd]; split
      · simp [OncePc.inside]
      · exact h1 u
  | creating =>
    have hfl : s.flag = .running t := by
      cases hfl : s.flag with
      | fresh => have := ((hf hfl).1 t).1; simp [hp, OncePc.inside] at this
      | running u =>
        by_contra hc
        have hne : t ≠ u := by rintro rfl; exact hc rfl
        have := (hr u hfl).2.1 t hne; simp [hp, OncePc.inside] at this
      | done => have := (hd hfl).1 t; simp [hp, OncePc.inside] at this
    obtain ⟨h1, h2, h3, h4, h5⟩ := hr t hfl
    simp only [hp] at h5
    dsimp only
    cases th with
    | true =>
      refine ⟨fun _ => ⟨fun u => ?_, h5.1, h5.2, h4⟩, fun u e => by simp at e, fun e => by simp at e, hg⟩
      simp only [if_true, upd]; split
      · simp [OncePc.inside]
      · exact ⟨h2 u ‹_›, h3 u⟩
    | false =>
      refine ⟨fun e => by simp [hfl] at e, fun u e => ?_, fun e => by simp [hfl] at e, hg⟩
      obtain rfl : t = u := by simpa [hfl] using e
      refine ⟨by simp [OncePc.inside], fun w hw => ?_, fun w => ?_, h4, by simp [h5.1, h5.2]⟩
      · simp only [Bool.false_eq_true, if_false, upd, if_neg hw]; exact h2 w hw
      · simp only [Bool.false_eq_true, if_false, upd]; split
        · simp
        · exact h3 w
  | created p =>
    have hfl : s.flag = .running t := by
      cases hfl : s.flag with
      | fresh => have := ((hf hfl).1 t).1; simp [hp, OncePc.inside] at this
      | running u =>
        by_contra hc
        have hne : t ≠ u := by rintro rfl; exact hc rfl
        have := (hr u hfl).2.1 t hne; simp [hp, OncePc.inside] at this
      | done => have := (hd hfl).1 t; simp [hp, OncePc.inside] at this
    obtain ⟨h1, h2, h3, h4, h5⟩ := hr t hfl
    simp only [hp] at h5
    dsimp only
    refine ⟨fun e => by simp [hfl] at e, fun u e => ?_, fun e => by simp [hfl] at e, hg⟩
    obtain rfl : t = u := by simpa [hfl] using e
    refine ⟨by simp [OncePc.inside], fun w hw => ?_, fun w => ?_, h4, by simp [h5.1, h5.2.1]⟩
    · simp only [upd, if_neg hw]; exact h2 w hw
    · simp only [upd]; split
      · simp
      · exact h3 w
  | stored =>
    have hfl : s.flag = .running t := by
      cases hfl : s.flag with
      | fresh => have := ((hf hfl).1 t).1; simp [hp, OncePc.inside] at this
      | running u =>
        by_contra hc
        have hne : t ≠ u := by rintro rfl; exact hc rfl
        have := (hr u hfl).2.1 t hne; simp [hp, OncePc.inside] at this
      | done => have := (hd hfl).1 t; simp [hp, OncePc.inside] at this
    obtain ⟨h1, h2, h3, h4, h5⟩ := hr t hfl
    simp only [hp] at h5
    dsimp only
    refine ⟨fun e => by simp at e, fun u e => by simp at e, fun _ => ⟨fun u => ?_, h5.1, h5.2, ?_⟩, hg⟩
    · simp only [upd]; split
      · simp [OncePc.inside]
      · exact h2 u ‹_›
    · simp [h4]
  | leaving =>
    have hfl : s.flag = .done := by
      cases hfl : s.flag with
      | fresh => exact absurd hp ((hf hfl).1 t).2
      | running u => exact absurd hp ((hr u hfl).2.2.1 t)
      | done => rfl
    obtain ⟨h1, h2, h3, h4⟩ := hd hfl
    dsimp only
    simp only [h3]
    refine ⟨fun e => by simp [hfl] at e, fun u e => by simp [hfl] at e, fun _ => ⟨fun u => ?_, h2, rfl, ?_⟩, hg⟩
    · simp only [upd]; split
      · simp [OncePc.inside]
      · exact h1 u
    · intro p hp'
      rcases List.mem_cons.1 hp' with rfl | hp'
      · rfl
      · exact h4 p hp'

theorem onceInv_run (s : OnceState) (h : OnceInv s) (sched : List (ℕ × Bool)) : OnceInv (onceRun s sched) := by
  induction sched generalizing s with
  | nil => exact h
  | cons e es ih => exact ih _ (onceInv_step h e.1 e.2)

/-- C81: whatever the threads, their calls and the order of their steps, and whichever constructors fail: at most one
object is created, every reference handed out is a reference to it, and no null pointer is dereferenced. -/
theorem C81_one_instance (sched : List (ℕ × Bool)) :
    let s := onceRun .init sched
    s.objects ≤ 1 ∧ (∀ p ∈ s.handed, ∀ q ∈ s.handed, p = q) ∧ (∀ p ∈ s.handed, s.inst = some p) ∧ s.bad = false := by
  intro s
  have h : OnceInv s := onceInv_run _ onceInv_init sched
  obtain ⟨hf, hr, hd, hg⟩ := h
  cases hfl : s.flag with
  | fresh => simp [hf hfl, hg]
  | running t =>
    obtain ⟨-, -, -, h4, h5⟩ := hr t hfl
    have : s.objects ≤ 1 := by
      split at h5 <;> omega
    simp [h4, hg, this]
  | done =>
    obtain ⟨-, h2, h3, h4⟩ := hd hfl
    exact ⟨by omega, fun p hp q hq => (h4 p hp).trans (h4 q hq).symm, fun p hp => by rw [h3, h4 p hp], hg⟩

theorem onceRun_append (s : OnceState) (a b : List (ℕ × Bool)) : onceRun s (a ++ b) = onceRun (onceRun s a) b :=
  List.foldl_append

/-- C81: no deadlock: whatever has happened, a thread that has called `GetInstance` gets a reference if the threads
keep running and the constructor no longer fails. `u` is the thread that runs the constructor at that moment, if any. -/
theorem C81_no_deadlock (sched : List (ℕ × Bool)) (t : ℕ) (ht : (onceRun .init sched).pc t = .entered) :
    ∃ more : List (ℕ × Bool), (∀ e ∈ more, e.2 = false) ∧ more.length ≤ 5 ∧
      (onceRun .init (sched ++ more)).handed.length = (onceRun .init sched).handed.length + 1 := by
  set s := onceRun .init sched with hs
  have h : OnceInv s := onceInv_run _ onceInv_init sched
  obtain ⟨hf, hr, hd, hg⟩ := h
  cases hfl : s.flag with
  | fresh =>
    refine ⟨[(t, false), (t, false), (t, false), (t, false), (t, false)], by simp, by simp, ?_⟩
    rw [onceRun_append, ← hs]
    simp [onceRun, onceStep, ht, hfl]
  | running u =>
    have hu := hr u hfl
    have hne : t ≠ u := by rintro rfl; rw [ht] at hu; exact hu.1
    have hne' : u ≠ t := Ne.symm hne
    cases hp : s.pc u with
    | creating =>
      refine ⟨[(u, false), (u, false), (u, false), (t, false), (t, false)], by simp, by simp, ?_⟩
      rw [onceRun_append, ← hs]
      simp [onceRun, onceStep, ht, hp, hne]
    | created p =>
      refine ⟨[(u, false), (u, false), (t, false), (t, false)], by simp, by simp, ?_⟩
      rw [onceRun_append, ← hs]
      simp [onceRun, onceStep, ht, hp, hne]
    | stored =>
      have h5 := hu.2.2.2.2
      simp only [hp] at h5
      refine ⟨[(u, false), (t, false), (t, false)], by simp, by simp, ?_⟩
      rw [onceRun_append, ← hs]
      simp [onceRun, onceStep, ht, hp, hne, h5.2]
    | idle => rw [hp] at hu; exact hu.1.elim
    | entered => rw [hp] at hu; exact hu.1.elim
    | leaving => rw [hp] at hu; exact hu.1.elim
  | done =>
    refine ⟨[(t, false), (t, false)], by simp, by simp, ?_⟩
    rw [onceRun_append, ← hs]
    simp [onceRun, onceStep, ht, hfl, (hd hfl).2.2.1]

/-- Two threads race, the first constructor fails, both get the same object. -/
example : let s := onceRun .init [(0, false), (1, false), (0, false), (1, false), (0, true), (1, false), (0, false),
      (0, false), (1, false), (1, false), (1, false), (0, false), (0, false), (1, false)]
    s.handed = [0, 0] ∧ s.objects = 1 ∧ s.failures = 1 := by decide +kernel

end Nlcg
