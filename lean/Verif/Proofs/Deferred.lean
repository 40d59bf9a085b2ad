import Verif.Spec.Deferred

/-! Deferred computations. -/

namespace Nlcg
open Spec

variable {σ β θ : Type}

/-- which cells are ready, and what is in the others -/
structure Waiting (tasks : List (SM σ β)) (seen : List ℕ) (s : FState σ β θ) : Prop where
  len : s.cells.length = tasks.length
  ready : ∀ i, i ∈ seen → i < tasks.length → ∃ r, s.cells[i]? = some (.ready r)
  pending : ∀ i, i ∉ seen → s.cells[i]? = tasks[i]?.map .pending

theorem fresh_waiting (tasks : List (SM σ β)) (m : σ) : Waiting tasks [] (fresh (θ := θ) tasks m) :=
  ⟨by simp [fresh, defer], fun i h => by simp at h, fun i _ => by simp [fresh, defer]⟩

theorem Waiting.get {tasks : List (SM σ β)} {seen : List ℕ} {s : FState σ β θ} (h : Waiting tasks seen s) (th : θ) {i : ℕ}
    (hi : i < tasks.length) :
    Waiting tasks (i :: seen) (getFuture th i s).2 ∧
      (getFuture th i s).2.runs = s.runs ++ (if i ∈ seen then [] else [(i, th)]) := by
  by_cases hs : i ∈ seen
  · obtain ⟨r, hr⟩ := h.ready i hs hi
    rw [getFuture, hr, if_pos hs]
    refine ⟨⟨h.len, fun j hj hl => ?_, fun j hj => h.pending j fun hj' => hj (List.mem_cons_of_mem _ hj')⟩, by simp⟩
    rcases List.mem_cons.1 hj with rfl | hj
    · exact ⟨r, hr⟩
    · exact h.ready j hj hl
  · have hp := h.pending i hs
    rw [List.getElem?_eq_getElem hi] at hp
    rw [getFuture, hp, if_neg hs]
    simp only [Option.map_some, and_true]
    refine ⟨by simp [h.len], fun j hj hl => ?_, fun j hj => ?_⟩
    · by_cases hji : j = i
      · subst hji
        exact ⟨_, List.getElem?_set_self (by rw [h.len]; exact hi)⟩
      · rw [List.getElem?_set_ne (Ne.symm hji)]
        exact h.ready j ((List.mem_cons.1 hj).resolve_left hji) hl
    · have hji : j ≠ i := fun e => hj (e ▸ List.mem_cons_self ..)
      simp only
      rw [List.getElem?_set_ne (Ne.symm hji)]
      exact h.pending j fun hj' => hj (List.mem_cons_of_mem _ hj')

theorem history_runs {tasks : List (SM σ β)} : ∀ (as : List (Act σ θ)) (seen : List ℕ) (s : FState σ β θ),
    Waiting tasks seen s → (∀ r ∈ reads as, r.1 < tasks.length) →
    (history getFuture as s).2.runs = s.runs ++ firstReads seen (reads as)
  | [], seen, s, _, _ => by simp [history, reads, firstReads]
  | .other f :: as, seen, s, h, hr => by
    rw [history, reads]
    exact history_runs as seen { s with mem := f s.mem } ⟨h.len, h.ready, h.pending⟩ hr
  | .read th i :: as, seen, s, h, hr => by
    obtain ⟨h1, h2⟩ := h.get th (hr (i, th) (by simp [reads]))
    have := history_runs as (i :: seen) _ h1 fun r hm => hr r (by simp [reads, hm])
    rw [history]
    simp only
    rw [this, h2, reads, firstReads]
    simp only
    split
    · next hi =>
      rw [List.append_nil]
      congr 1
      exact firstReads_congr _ _ _ fun j => by simp only [List.mem_cons]; exact ⟨fun h => h.elim (fun e => e ▸ hi) id, .inr⟩
    · simp
where
  firstReads_congr : ∀ (rs : List (ℕ × θ)) (a c : List ℕ), (∀ j, j ∈ a ↔ j ∈ c) → firstReads a rs = firstReads c rs
    | [], _, _, _ => rfl
    | r :: rs, a, c, h => by
      rw [firstReads, firstReads]
      simp only [h r.1]
      rw [firstReads_congr rs a c h, firstReads_congr rs (r.1 :: a) (r.1 :: c) fun j => by simp [h j]]

/-- a value that is there stays, and all later reads give it -/
theorem history_ready {i : ℕ} {r : Res β} : ∀ (as : List (Act σ θ)) (s : FState σ β θ), s.cells[i]? = some (.ready r) →
    ∀ q ∈ (history getFuture as s).1, q.1 = i → q.2 = r
  | [], s, _ => by simp [history]
  | .other f :: as, s, h => by
    rw [history]
    exact history_ready as { s with mem := f s.mem } h
  | .read th j :: as, s, h => by
    rw [history]
    intro q hq hi
    rcases List.mem_cons.1 hq with rfl | hq
    · simp only at hi
      subst hi
      simp only [getFuture, h]
    · refine history_ready as _ ?_ q hq hi
      rw [getFuture]
      split
      · exact h
      · exact h
      · next task hj =>
        simp only
        rw [List.getElem?_set_ne]
        · exact h
        · rintro rfl
          rw [h] at hj
          cases hj

theorem history_append (get : θ → ℕ → SM (FState σ β θ) β) : ∀ (as cs : List (Act σ θ)) (s : FState σ β θ),
    history get (as ++ cs) s
      = ((history get as s).1 ++ (history get cs (history get as s).2).1, (history get cs (history get as s).2).2)
  | [], cs, s => by simp [history]
  | .other f :: as, cs, s => by
    rw [List.cons_append, history, history_append get as cs, history]
  | .read th i :: as, cs, s => by
    rw [List.cons_append, history, history_append get as cs, history]
    rfl

theorem history_pending {tasks : List (SM σ β)} {i : ℕ} : ∀ (as : List (Act σ θ)) (seen : List ℕ) (s : FState σ β θ),
    Waiting tasks seen s → (∀ r ∈ reads as, r.1 < tasks.length) →
    ∃ seen', Waiting tasks seen' (history getFuture as s).2 ∧ (i ∉ seen → (∀ r ∈ reads as, r.1 ≠ i) → i ∉ seen')
  | [], seen, s, h, _ => ⟨seen, h, fun h _ => h⟩
  | .other f :: as, seen, s, h, hr => by
    rw [history]
    exact history_pending as seen { s with mem := f s.mem } ⟨h.len, h.ready, h.pending⟩ hr
  | .read th j :: as, seen, s, h, hr => by
    obtain ⟨seen', h1, h2⟩ := history_pending (i := i) as (j :: seen) _ (h.get th (hr (j, th) (by simp [reads]))).1
      fun r hm => hr r (by simp [reads, hm])
    rw [history]
    refine ⟨seen', h1, fun hi hne => h2 ?_ fun r hm => hne r (by simp [reads, hm])⟩
    rw [List.mem_cons]
    rintro (e | hm)
    · exact hne (j, th) (by simp [reads]) e.symm
    · exact hi hm

/-- `eval_threaded` on tasks that wait -/
theorem evalAll_apply {tasks : List (SM σ β)} (th : θ) : ∀ (ts : List (SM σ β)) (done : List (SM σ β)) (seen : List ℕ)
    (s : FState σ β θ), tasks = done ++ ts → (∀ i ∈ seen, i < done.length) → Waiting tasks seen s →
    (evalAll th (List.range' done.length ts.length) s).1 = (inOrder ts s.mem).1 ∧
    (evalAll th (List.range' done.length ts.length) s).2.mem = (inOrder ts s.mem).2 ∧
    (evalAll th (List.range' done.length ts.length) s).2.runs
      = s.runs ++ (List.range' done.length (begun ts s.mem)).map fun i => (i, th)
  | [], done, seen, s, _, _, _ => by simp [evalAll, inOrder, begun]
  | t :: ts, done, seen, s, ht, hseen, hw => by
    have hlen : done.length < tasks.length := by rw [ht]; simp
    have hns : done.length ∉ seen := fun h => lt_irrefl _ (hseen _ h)
    have hp := hw.pending _ hns
    rw [ht, List.getElem?_append_right le_rfl] at hp
    simp only [Nat.sub_self, List.getElem?_cons_zero, Option.map_some] at hp
    obtain ⟨g1, g2⟩ := hw.get th hlen
    have hget : getFuture th done.length s = ((t s.mem).1,
        { mem := (t s.mem).2, cells := s.cells.set done.length (.ready (t s.mem).1), runs := s.runs ++ [(done.length, th)] }) := by
      rw [getFuture, hp]
    rw [List.length_cons, List.range'_succ, evalAll, SM.bind_apply, hget, inOrder, SM.bind_apply, begun]
    rw [hget] at g1
    rcases hq : t s.mem with ⟨q, m⟩
    rw [hq] at g1
    rcases q with a | e | _ | _
    · simp only
      have ih := evalAll_apply th ts (done ++ [t]) (done.length :: seen) _ (by rw [ht]; simp) (by
        intro i hi
        rcases List.mem_cons.1 hi with rfl | hi
        · simp
        · have := hseen i hi
          simp
          omega) g1
      rw [List.length_append, List.length_singleton] at ih
      obtain ⟨i1, i2, i3⟩ := ih
      simp only at i1 i2 i3
      rw [SM.bind_apply, SM.bind_apply]
      generalize evalAll th (List.range' (done.length + 1) ts.length) _ = x at i1 i2 i3
      generalize inOrder ts m = y at i1 i2
      obtain ⟨x1, x2⟩ := x
      obtain ⟨y1, y2⟩ := y
      simp only at i1 i2 i3
      subst i1
      subst i2
      rw [List.range'_succ]
      rcases x1 with v | e | _ | _ <;> exact ⟨rfl, rfl, by simp [i3]⟩
    all_goals simp

/-- running the tasks of a list is running those of a family -/
theorem inOrder_ofFn : ∀ {K : ℕ} (f : Fin K → SM σ β) (m : σ),
    inOrder (List.ofFn f) m = ((forAllM (β := fun _ => β) f >>= fun r => pure (List.ofFn r)) : SM σ (List β)) m
  | 0, f, m => by simp [inOrder, forAllM, SM.bind_apply]
  | K + 1, f, m => by
    rw [List.ofFn_succ, inOrder, SM.bind_apply, forAllM, SM.bind_apply, SM.bind_apply]
    rcases f 0 m with ⟨q, m'⟩
    rcases q with a | e | _ | _
    · simp only
      rw [SM.bind_apply, inOrder_ofFn (fun k => f k.succ) m', SM.bind_apply, SM.bind_apply]
      rcases forAllM (β := fun _ => β) (fun k => f k.succ) m' with ⟨q, m''⟩
      rcases q with r | e | _ | _
      · simp [List.ofFn_succ]
      all_goals rfl
    all_goals rfl

theorem function_history (tasks : List (SM σ β)) : ∀ (as : List (Act σ θ)) (s : FState σ β θ),
    (∀ r ∈ reads as, r.1 < tasks.length) → (history (callFunction tasks) as s).2.runs = s.runs ++ reads as
  | [], s, _ => by simp [history, reads]
  | .other f :: as, s, hr => by
    rw [history, function_history tasks as _ hr, reads]
  | .read th i :: as, s, hr => by
    have hi : i < tasks.length := hr (i, th) (by simp [reads])
    rw [history]
    simp only
    rw [function_history tasks as _ fun r hm => hr r (by simp [reads, hm]), reads, callFunction,
      List.getElem?_eq_getElem hi]
    simp

end Nlcg
