import Verif.Proofs.Deferred

/-!
# C124: work deferred per k-point
-/

namespace Nlcg
open Spec

variable {σ β θ : Type} {tasks : List (SM σ β)} {m : σ}

/-- **C124.** Whatever else happens, a task is run when its result is first read, by the thread that reads it, and never
again: the record of runs is the list of first reads. A task that nobody asks for is not run. -/
theorem C124_once (as : List (Act σ θ)) (hr : ∀ r ∈ reads as, r.1 < tasks.length) :
    (history getFuture as (fresh tasks m)).2.runs = firstReads [] (reads as) := by
  rw [history_runs as [] _ (fresh_waiting tasks m) hr]
  simp [fresh, defer]

/-- **C124.** The first read of a task gives what the task computes from memory as it is then, be it a value or an
exception, and all later reads give the same, whatever has happened to memory since. -/
theorem C124_value (before after : List (Act σ θ)) (th : θ) {i : ℕ} (hi : i < tasks.length)
    (hb : ∀ r ∈ reads before, r.1 < tasks.length ∧ r.1 ≠ i) :
    ∃ later, (history getFuture (before ++ .read th i :: after) (fresh tasks m)).1
        = (history getFuture before (fresh tasks m)).1
          ++ (i, (tasks[i] (history getFuture before (fresh (θ := θ) tasks m)).2.mem).1) :: later ∧
      ∀ q ∈ later, q.1 = i → q.2 = (tasks[i] (history getFuture before (fresh (θ := θ) tasks m)).2.mem).1 := by
  obtain ⟨seen, h1, h2⟩ := history_pending (i := i) before [] _ (fresh_waiting (θ := θ) tasks m) fun r hm => (hb r hm).1
  have hn := h2 (by simp) fun r hm => (hb r hm).2
  rw [history_append]
  generalize (history getFuture before (fresh tasks m)).2 = s at h1
  have hp := h1.pending i hn
  rw [List.getElem?_eq_getElem hi, Option.map_some] at hp
  have hg : getFuture th i s = ((tasks[i] s.mem).1,
      { mem := (tasks[i] s.mem).2, cells := s.cells.set i (.ready (tasks[i] s.mem).1), runs := s.runs ++ [(i, th)] }) := by
    rw [getFuture, hp]
  rw [history, hg]
  refine ⟨_, rfl, history_ready after _ (r := (tasks[i] s.mem).1) ?_⟩
  exact List.getElem?_set_self (by rw [h1.len]; exact hi)

/-- **C124.** `eval_threaded(tapply_async(...))`: the tasks are run one after the other in the order of the k-points, each
once and by the calling thread, until one fails; later ones are not begun. -/
theorem C124_collect (tasks : List (SM σ β)) (m : σ) (th : θ) :
    let q := evalAll th (List.range tasks.length) (fresh tasks m)
    q.1 = (inOrder tasks m).1 ∧ q.2.mem = (inOrder tasks m).2 ∧
      q.2.runs = (List.range (begun tasks m)).map fun i => (i, th) := by
  have h := evalAll_apply th tasks [] [] (fresh (θ := θ) tasks m) rfl (by simp) (fresh_waiting tasks m)
  simpa only [List.length_nil, ← List.range_eq_range', fresh, defer, List.nil_append] using h

/-- **C124.** This is the loop over the k-points in the models of the solver. -/
theorem C124_loop {K : ℕ} (f : Fin K → SM σ β) (m : σ) (th : θ) :
    let q := evalAll th (List.range K) (fresh (List.ofFn f) m)
    let r := forAllM (β := fun _ => β) f m
    q.2.mem = r.2 ∧ q.1 = (do let x ← r.1; pure (List.ofFn x)) := by
  have h := C124_collect (List.ofFn f) m th
  rw [List.length_ofFn] at h
  obtain ⟨h1, h2, -⟩ := h
  simp only
  rw [h1, h2, inOrder_ofFn, SM.bind_apply]
  rcases forAllM (β := fun _ => β) f m with ⟨q, m'⟩
  rcases q with a | e | _ | _ <;> exact ⟨rfl, rfl⟩

/-- **C124.** Containers made by `tapply` are different: every read runs the task again. -/
theorem C124_functions (as : List (Act σ θ)) (hr : ∀ r ∈ reads as, r.1 < tasks.length) :
    (history (callFunction tasks) as (fresh tasks m)).2.runs = reads as := by
  rw [function_history tasks as _ hr]
  simp [fresh, defer]

/-! ## Examples -/

/-- tells what is in memory -/
def look : SM ℕ ℕ := fun m => (.ok m, m)

/-- fails, after it has changed memory -/
def broken : SM ℕ ℕ := fun m => (.throw .runtimeError, m + 1)

/-- two tasks, read by two threads, with changes in between -/
def busy : List (Act ℕ Bool) :=
  [.other (· + 3), .read true 0, .read false 1, .other (· + 5), .read false 0, .read true 1, .other (· + 1), .read true 0]

example : (history getFuture busy (fresh [look, broken] 4)).1
      = [(0, .ok 7), (1, .throw .runtimeError), (0, .ok 7), (1, .throw .runtimeError), (0, .ok 7)] ∧
    (history getFuture busy (fresh [look, broken] 4)).2.runs = [(0, true), (1, false)] ∧
    ∀ r ∈ reads busy, r.1 < [look, broken].length := by
  refine ⟨rfl, rfl, ?_⟩
  decide

/-- the same with functions: the values change, and the task that fails does so again and again -/
example : (history (callFunction [look, broken]) busy (fresh [look, broken] 4)).1
      = [(0, .ok 7), (1, .throw .runtimeError), (0, .ok 13), (1, .throw .runtimeError), (0, .ok 15)] ∧
    (history (callFunction [look, broken]) busy (fresh [look, broken] 4)).2.runs = reads busy := ⟨rfl, rfl⟩

/-- three k-points; the second fails -/
example : evalAll () [0, 1, 2] (fresh [look, broken, look] 4)
      = (.throw .runtimeError,
         { mem := 5, cells := [.ready (.ok 4), .ready (.throw .runtimeError), .pending look], runs := [(0, ()), (1, ())] }) :=
  rfl

end Nlcg
