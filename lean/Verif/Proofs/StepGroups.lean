import Verif.Model.StepGroups
import Verif.Proofs.StepRace

/-! Several groups and one step file. -/

namespace Nlcg
open FileAct
variable {G R : ℕ} {β : Type}

theorem groupStep_same (s : GroupState G R β) (g : Fin G) (r : Fin R) :
    (groupStep s (g, r)).group g = fileStep (s.group g) r := by
  simp [groupStep, GroupState.group]

theorem groupStep_other (s : GroupState G R β) {g g' : Fin G} (r : Fin R) (h : g' ≠ g) :
    (groupStep s (g, r)).done g' = s.done g' ∧ (groupStep s (g, r)).todo g' = s.todo g' := by
  simp [groupStep, Function.update_of_ne h]

/-- turns of one group only -/
theorem groupRun_alone (s : GroupState G R β) (g : Fin G) (sched : List (Fin R)) :
    (groupRun s (sched.map fun r => (g, r))).group g = fileRun (s.group g) sched ∧
    ∀ g', g' ≠ g → (groupRun s (sched.map fun r => (g, r))).done g' = s.done g' ∧
      (groupRun s (sched.map fun r => (g, r))).todo g' = s.todo g' := by
  induction sched generalizing s with
  | nil => exact ⟨rfl, fun _ _ => ⟨rfl, rfl⟩⟩
  | cons r l ih =>
    obtain ⟨h1, h2⟩ := ih (groupStep s (g, r))
    refine ⟨?_, fun g' hg => ?_⟩
    · exact h1.trans (by rw [groupStep_same]; rfl)
    · exact ⟨(h2 g' hg).1.trans (groupStep_other s r hg).1, (h2 g' hg).2.trans (groupStep_other s r hg).2⟩

theorem groupRun_append (s : GroupState G R β) (l m : List (Fin G × Fin R)) :
    groupRun s (l ++ m) = groupRun (groupRun s l) m := List.foldl_append

/-- the two ways a turn can go -/
theorem groupStep_cases (s : GroupState G R β) (x : Fin G × Fin R) :
    groupStep s x = s ∨ ∃ a rest, s.todo x.1 x.2 = a :: rest ∧ (groupStep s x).file = a.effect s.file ∧
      (∀ g r, (groupStep s x).done g r = if g = x.1 ∧ r = x.2 then s.done g r ++ [a] else s.done g r) ∧
      (∀ g r, (groupStep s x).todo g r = if g = x.1 ∧ r = x.2 then rest else s.todo g r) := by
  obtain ⟨g, r⟩ := x
  have hstay : fileStep (s.group g) r = s.group g → groupStep s (g, r) = s := by
    intro h
    simp only [groupStep, h]
    simp [GroupState.group]
  rcases ht : s.todo g r with _ | ⟨a, rest⟩
  · refine .inl (hstay ?_)
    rw [fileStep]
    simp only [GroupState.group, ht]
  by_cases hb : (s.group g).blocked r a
  · refine .inl (hstay ?_)
    have ht' : (s.group g).todo r = a :: rest := ht
    rw [fileStep, ht']
    simp only [hb, if_true]
  · refine .inr ⟨a, rest, rfl, ?_, ?_, ?_⟩
    all_goals
      have ht' : (s.group g).todo r = a :: rest := ht
      have hf : fileStep (s.group g) r = { file := a.effect s.file
                                           done := Function.update (s.done g) r (s.done g r ++ [a])
                                           todo := Function.update (s.todo g) r rest } := by
        rw [fileStep, ht']
        simp only [hb, if_false]
        rfl
    · simp only [groupStep, hf]
    · intro g' r'
      simp only [groupStep, hf]
      by_cases hg : g' = g
      · subst hg
        rw [Function.update_self]
        by_cases hr : r' = r
        · subst hr; simp
        · simp [hr]
      · simp [hg]
    · intro g' r'
      simp only [groupStep, hf]
      by_cases hg : g' = g
      · subst hg
        rw [Function.update_self]
        by_cases hr : r' = r
        · subst hr; simp
        · simp [hr]
      · simp [hg]

/-- whether and how a rank proceeds does not depend on the file -/
theorem fileStep_file (s : FileState R β) (r : Fin R) :
    (∀ f, fileStep { s with file := f } r = { s with file := f }) ∨
    ∃ (a : FileAct β) (done todo : Fin R → List (FileAct β)), ∀ f,
      fileStep { s with file := f } r = { file := a.effect f, done := done, todo := todo } := by
  rcases ht : s.todo r with _ | ⟨a, rest⟩
  · left; intro f; rw [fileStep]; simp only [ht]
  have hb' : ∀ f, ({ s with file := f } : FileState R β).blocked r a ↔ s.blocked r a := fun f => by cases a <;> exact Iff.rfl
  by_cases hb : s.blocked r a
  · left; intro f; rw [fileStep]; simp only [ht, (hb' f).2 hb, if_true]
  · right
    refine ⟨a, Function.update s.done r (s.done r ++ [a]), Function.update s.todo r rest, fun f => ?_⟩
    rw [fileStep]
    simp only [ht]
    rw [if_neg (fun h => hb ((hb' f).1 h))]

/-- group 1 repeats every turn of group 0 -/
structure Twice (s : FileState R β) (d : GroupState 2 R β) : Prop where
  done : ∀ g, d.done g = s.done
  todo : ∀ g, d.todo g = s.todo
  file : d.file = s.file.flatMap fun x => [x, x]

theorem Twice.step {s : FileState R β} {d : GroupState 2 R β} (h : Twice s d) (r : Fin R) :
    Twice (fileStep s r) (groupStep (groupStep d (0, r)) (1, r)) := by
  have g0 : d.group 0 = { s with file := d.file } := by simp [GroupState.group, h.done, h.todo]
  have e1 := groupStep_same d 0 r
  obtain ⟨o1, o2⟩ := groupStep_other d (g := 0) (g' := 1) r (by decide)
  have g1 : (groupStep d (0, r)).group 1 = { s with file := (groupStep d (0, r)).file } := by
    simp [GroupState.group, h.done, h.todo, o1, o2]
  have e2 := groupStep_same (groupStep d (0, r)) 1 r
  obtain ⟨p1, p2⟩ := groupStep_other (groupStep d (0, r)) (g := 1) (g' := 0) r (by decide)
  rw [g0] at e1
  rw [g1] at e2
  have finish : ∀ (a : List β → List β) (done todo : Fin R → List (FileAct β)),
      (∀ f, fileStep { s with file := f } r = { file := a f, done := done, todo := todo }) →
      (∀ f, a (a (f.flatMap fun x => [x, x])) = (a f).flatMap fun x => [x, x]) →
      Twice (fileStep s r) (groupStep (groupStep d (0, r)) (1, r)) := by
    intro a done todo ha hd
    rw [ha] at e1 e2
    have e3 : fileStep s r = { file := a s.file, done := done, todo := todo } := ha s.file
    have hf : (groupStep d (0, r)).file = a d.file := congrArg FileState.file e1
    rw [e3]
    refine ⟨fun g => ?_, fun g => ?_, ?_⟩
    · fin_cases g
      · exact p1.trans (show (groupStep d (0, r)).done 0 = done from congrArg (fun t : FileState R β => t.done) e1)
      · exact (show (groupStep (groupStep d (0, r)) (1, r)).done 1 = done from congrArg (fun t : FileState R β => t.done) e2)
    · fin_cases g
      · exact p2.trans (show (groupStep d (0, r)).todo 0 = todo from congrArg (fun t : FileState R β => t.todo) e1)
      · exact (show (groupStep (groupStep d (0, r)) (1, r)).todo 1 = todo from congrArg (fun t : FileState R β => t.todo) e2)
    · refine (congrArg FileState.file e2).trans ?_
      show a (groupStep d (0, r)).file = _
      rw [hf, h.file, hd]
  rcases fileStep_file s r with h1 | ⟨a, done, todo, h1⟩
  · exact finish id s.done s.todo h1 fun f => rfl
  · exact finish a.effect done todo h1 fun f => by cases a <;> simp [FileAct.effect]

theorem Twice.run {s : FileState R β} {d : GroupState 2 R β} (h : Twice s d) (sched : List (Fin R)) :
    Twice (fileRun s sched) (groupRun d (sched.flatMap fun r => [(0, r), (1, r)])) := by
  induction sched generalizing s d with
  | nil => exact h
  | cons r l ih => exact ih (h.step r)

/-- what is done and what is left make up the program -/
theorem done_all {acts : Fin G → Fin R → List (FileAct β)} (sched : List (Fin G × Fin R)) (s : GroupState G R β)
    (hs : ∀ g r, s.done g r ++ s.todo g r = acts g r) (g : Fin G) (r : Fin R) :
    (groupRun s sched).done g r ++ (groupRun s sched).todo g r = acts g r := by
  induction sched generalizing s with
  | nil => exact hs g r
  | cons x l ih =>
    refine ih (groupStep s x) ?_
    intro g r
    rcases groupStep_cases s x with h | ⟨a, rest, h1, h2, h3, h4⟩
    · rw [h]; exact hs g r
    · rw [h3, h4]
      split_ifs with h
      · obtain ⟨rfl, rfl⟩ := h
        rw [← hs, h1]; simp
      · exact hs g r

/-- what a group has written and what of it is in the file -/
theorem latest {tag : β → Option (Fin G)} {acts : Fin G → Fin R → List (FileAct β)} {first : Fin R}
    (htag : ∀ g r, ∀ x ∈ appended (acts g r), tag x = some g ∧ r = first) (sched : List (Fin G × Fin R))
    (s : GroupState G R β) (hs : ∀ g r, s.done g r ++ s.todo g r = acts g r)
    (hf : ∀ g, s.file.filter (fun x => tag x = some g) <:+ appended (s.done g first)) (g : Fin G) :
    (groupRun s sched).file.filter (fun x => tag x = some g) <:+ appended ((groupRun s sched).done g first) := by
  induction sched generalizing s with
  | nil => exact hf g
  | cons x l ih =>
    refine ih (groupStep s x) ?_ ?_
    · intro g r
      rcases groupStep_cases s x with h | ⟨a, rest, h1, h2, h3, h4⟩
      · rw [h]; exact hs g r
      · rw [h3, h4]
        split_ifs with h
        · obtain ⟨rfl, rfl⟩ := h
          rw [← hs, h1]; simp
        · exact hs g r
    · intro g
      rcases groupStep_cases s x with h | ⟨a, rest, h1, h2, h3, h4⟩
      · rw [h]; exact hf g
      · rw [h2, h3]
        cases a with
        | remove => simp [FileAct.effect]
        | enter =>
          refine (hf g).trans ?_
          split_ifs <;> simp [appended, List.filterMap_append]
        | leave =>
          refine (hf g).trans ?_
          split_ifs <;> simp [appended, List.filterMap_append]
        | append y =>
          have hy : y ∈ appended (acts x.1 x.2) := by
            rw [← hs, h1, appended_append]
            simp [appended]
          obtain ⟨t1, t2⟩ := htag _ _ y hy
          simp only [FileAct.effect, List.filter_append]
          by_cases hg : g = x.1
          · subst hg
            rw [if_pos ⟨rfl, t2.symm⟩, appended_append]
            have : List.filter (fun z => decide (tag z = some x.1)) [y] = [y] := by simp [t1]
            rw [this]
            obtain ⟨u, hu⟩ := hf x.1
            exact ⟨u, by rw [← List.append_assoc, hu]; rfl⟩
          · rw [if_neg (fun h => hg h.1)]
            have : List.filter (fun z => decide (tag z = some g)) [y] = [] := by
              simp [t1, Ne.symm hg]
            rw [this, List.append_nil]
            exact hf g

/-- once nobody removes the file any more, nothing is lost -/
theorem complete {tag : β → Option (Fin G)} {acts : Fin G → Fin R → List (FileAct β)} {first : Fin R}
    (htag : ∀ g r, ∀ x ∈ appended (acts g r), tag x = some g ∧ r = first) (sched : List (Fin G × Fin R))
    (s : GroupState G R β) (hs : ∀ g r, s.done g r ++ s.todo g r = acts g r)
    (hrem : ∀ g r, .remove ∉ s.todo g r)
    (hf : ∀ g, s.file.filter (fun x => tag x = some g) = appended (s.done g first)) (g : Fin G) :
    (groupRun s sched).file.filter (fun x => tag x = some g) = appended ((groupRun s sched).done g first) := by
  induction sched generalizing s with
  | nil => exact hf g
  | cons x l ih =>
    refine ih (groupStep s x) ?_ ?_ ?_
    · intro g r
      rcases groupStep_cases s x with h | ⟨a, rest, h1, h2, h3, h4⟩
      · rw [h]; exact hs g r
      · rw [h3, h4]
        split_ifs with h
        · obtain ⟨rfl, rfl⟩ := h
          rw [← hs, h1]; simp
        · exact hs g r
    · intro g r
      rcases groupStep_cases s x with h | ⟨a, rest, h1, h2, h3, h4⟩
      · rw [h]; exact hrem g r
      · rw [h4]
        split_ifs with h
        · have := hrem x.1 x.2
          rw [h1] at this
          exact fun h => this (List.mem_cons_of_mem _ h)
        · exact hrem g r
    · intro g
      rcases groupStep_cases s x with h | ⟨a, rest, h1, h2, h3, h4⟩
      · rw [h]; exact hf g
      · rw [h2, h3]
        cases a with
        | remove =>
          have := hrem x.1 x.2
          rw [h1] at this
          simp at this
        | enter =>
          refine (hf g).trans ?_
          split_ifs <;> simp [appended, List.filterMap_append]
        | leave =>
          refine (hf g).trans ?_
          split_ifs <;> simp [appended, List.filterMap_append]
        | append y =>
          have hy : y ∈ appended (acts x.1 x.2) := by
            rw [← hs, h1, appended_append]
            simp [appended]
          obtain ⟨t1, t2⟩ := htag _ _ y hy
          simp only [FileAct.effect, List.filter_append]
          by_cases hg : g = x.1
          · subst hg
            rw [if_pos ⟨rfl, t2.symm⟩, appended_append]
            have : List.filter (fun z => decide (tag z = some x.1)) [y] = [y] := by simp [t1]
            rw [this, hf]
            rfl
          · rw [if_neg (fun h => hg h.1)]
            have : List.filter (fun z => decide (tag z = some g)) [y] = [] := by
              simp [t1, Ne.symm hg]
            rw [this, List.append_nil]
            exact hf g

/-- the records of earlier runs are gone as soon as somebody has removed the file -/
theorem old_gone {old : β → Prop} {acts : Fin G → Fin R → List (FileAct β)} (file0 : List β)
    (hnew : ∀ g r, ∀ x ∈ appended (acts g r), ¬old x) (hrem : ∀ g r, acts g r = [] ∨ ∃ l, acts g r = .remove :: l)
    (sched : List (Fin G × Fin R)) (s : GroupState G R β) (hs : ∀ g r, s.done g r ++ s.todo g r = acts g r)
    (h : (∀ g r, s.done g r = []) ∧ s.file = file0 ∨ ∀ x ∈ s.file, ¬old x) :
    (∀ g r, (groupRun s sched).done g r = []) ∧ (groupRun s sched).file = file0 ∨
      ∀ x ∈ (groupRun s sched).file, ¬old x := by
  induction sched generalizing s with
  | nil => exact h
  | cons x l ih =>
    refine ih (groupStep s x) ?_ ?_
    · intro g r
      rcases groupStep_cases s x with h | ⟨a, rest, h1, h2, h3, h4⟩
      · rw [h]; exact hs g r
      · rw [h3, h4]
        split_ifs with h
        · obtain ⟨rfl, rfl⟩ := h
          rw [← hs, h1]; simp
        · exact hs g r
    · rcases groupStep_cases s x with h' | ⟨a, rest, h1, h2, h3, h4⟩
      · rw [h']; exact h
      · right
        rw [h2]
        rcases h with ⟨h, -⟩ | h
        · have := hs x.1 x.2
          rw [h, h1, List.nil_append] at this
          rcases hrem x.1 x.2 with e | ⟨l', e⟩
          · rw [e] at this; simp at this
          · rw [e] at this
            obtain rfl := (List.cons.inj this).1
            simp [FileAct.effect]
        · cases a with
          | remove => simp [FileAct.effect]
          | enter => exact h
          | leave => exact h
          | append y =>
            intro z hz
            simp only [FileAct.effect, List.mem_append, List.mem_singleton] at hz
            rcases hz with hz | rfl
            · exact h z hz
            · refine hnew x.1 x.2 z ?_
              rw [← hs, h1, appended_append]
              simp [appended]

end Nlcg
