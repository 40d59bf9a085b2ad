import Verif.Proofs.StepGroups
import Verif.Props.StepRace

/-!
# C105: one `nlcg.json` for several groups of processes

`C91` is about the ranks of one communicator of k-points. Here `G` such groups run at the same time in the same
directory: several calculations, or one calculation whose wave functions are distributed. `groupRun ⟨file0, fun _ _ => [],
acts⟩ sched` is what is on disk after the processes have had their turns in the order `sched`.
-/

namespace Nlcg
open Matrix Spec

/-- the action, with the name of whoever does it on the record -/
def FileAct.mark {β γ : Type} (t : γ) : FileAct β → FileAct (γ × β)
  | .remove => .remove
  | .append x => .append (t, x)
  | .enter => .enter
  | .leave => .leave

/-- the records in the file that come from `t`, in the order of the file -/
def recordsOf {β γ : Type} [DecidableEq γ] (t : γ) (file : List (γ × β)) : List β :=
  (file.filter fun x => x.1 = t).map Prod.snd

theorem appended_mark {β γ : Type} (t : γ) (l : List (FileAct β)) :
    appended (l.map (FileAct.mark t)) = (appended l).map fun x => (t, x) := by
  induction l with
  | nil => rfl
  | cons a l ih => cases a <;> simp_all [appended, FileAct.mark]

section
variable {m G : ℕ} {K : Fin G → ℕ} {own : (g : Fin G) → Fin (K g) → Fin (m + 1)} {n b : (g : Fin G) → Fin (K g) → ℕ}

/-- One group after the other: when all processes are through, the file holds the records of the last group. Those of the
first group are lost. -/
theorem C105_not_kept {K : Fin 2 → ℕ} {own : (g : Fin 2) → Fin (K g) → Fin (m + 1)} {n b : (g : Fin 2) → Fin (K g) → ℕ}
    (ω : (g : Fin 2) → (r : Fin (m + 1)) → ℕ → Reply (own g) (n g) (b g) r)
    (c : (g : Fin 2) → (r : Fin (m + 1)) → LCfg (own g) (n g) (b g) r) (hT : ∀ g r, (c g r).T ≠ 0)
    (prm : Fin 2 → NlcgParams ℝ) (fuel : ℕ)
    (w w' : (g : Fin 2) → (r : Fin (m + 1)) → NState ℝ (RState (own g) (n g) (b g) r))
    (o : Fin 2 → Fin (m + 1) → Res (Info ℝ))
    (hr : ∀ g r, rankRun (ω g r) (c g r) (prm g) fuel (w g r) = some (o g r, w' g r))
    (acts : Fin 2 → Fin (m + 1) → List (FileAct (JsonRec ℝ)))
    (ha : ∀ g r, RankActs (ω g r) (c g r) (w g r) (w' g r) (acts g r))
    (file0 : List (JsonRec ℝ)) (alone : Fin 2 → List (Fin (m + 1)))
    (hend : ∀ g file r, (fileRun ⟨file, fun _ => [], acts g⟩ (alone g)).todo r = []) :
    ∃ sched, (∀ g r, (groupRun ⟨file0, fun _ _ => [], acts⟩ sched).todo g r = []) ∧
      (groupRun ⟨file0, fun _ _ => [], acts⟩ sched).file = (w' 1 0).file := by
  set s0 : GroupState 2 (m + 1) (JsonRec ℝ) := ⟨file0, fun _ _ => [], acts⟩
  refine ⟨(alone 0).map (fun r => (0, r)) ++ (alone 1).map (fun r => (1, r)), ?_⟩
  rw [groupRun_append]
  obtain ⟨a1, a2⟩ := groupRun_alone s0 0 (alone 0)
  set s1 := groupRun s0 ((alone 0).map fun r => (0, r))
  obtain ⟨b1, b2⟩ := groupRun_alone s1 1 (alone 1)
  set s2 := groupRun s1 ((alone 1).map fun r => (1, r))
  obtain ⟨a3, a4⟩ := a2 1 (by decide)
  have hs1 : s1.group 1 = ⟨s1.file, fun _ => [], acts 1⟩ := by
    simp only [GroupState.group, a3, a4]
    rfl
  rw [hs1] at b1
  refine ⟨fun g r => ?_, ?_⟩
  · fin_cases g
    · show s2.todo 0 r = []
      rw [(b2 0 (by decide)).2]
      show (s1.group 0).todo r = []
      rw [a1]
      exact hend 0 file0 r
    · show (s2.group 1).todo r = []
      rw [b1]
      exact hend 1 s1.file r
  · show (s2.group 1).file = _
    rw [b1]
    exact C91_complete_partial (ω 1) (c 1) (hT 1) (prm 1) fuel (w 1) (w' 1) (o 1) (hr 1) (acts 1) (ha 1) s1.file
      (alone 1) (hend 1 s1.file)

/-- Two groups that do the same run at the same time, as when the wave functions of a calculation are distributed: the
file may end up with every record twice. -/
theorem C105_not_once {K : ℕ} {own : Fin K → Fin (m + 1)} {n b : Fin K → ℕ}
    (ω : (r : Fin (m + 1)) → ℕ → Reply own n b r) (c : (r : Fin (m + 1)) → LCfg own n b r) (hT : ∀ r, (c r).T ≠ 0)
    (prm : NlcgParams ℝ) (fuel : ℕ) (w w' : (r : Fin (m + 1)) → NState ℝ (RState own n b r))
    (o : Fin (m + 1) → Res (Info ℝ)) (hr : ∀ r, rankRun (ω r) (c r) prm fuel (w r) = some (o r, w' r))
    (acts : Fin (m + 1) → List (FileAct (JsonRec ℝ)))
    (ha : ∀ r, RankActs (ω r) (c r) (w r) (w' r) (acts r))
    (alone : List (Fin (m + 1))) (hend : ∀ r, (fileRun ⟨[], fun _ => [], acts⟩ alone).todo r = []) :
    ∃ sched, (∀ (g : Fin 2) r, (groupRun ⟨[], fun _ _ => [], fun _ => acts⟩ sched).todo g r = []) ∧
      (groupRun (G := 2) ⟨[], fun _ _ => [], fun _ => acts⟩ sched).file = (w' 0).file.flatMap fun x => [x, x] := by
  have ht := (show Twice (⟨[], fun _ => [], acts⟩ : FileState (m + 1) (JsonRec ℝ)) ⟨[], fun _ _ => [], fun _ => acts⟩ from
    ⟨fun _ => rfl, fun _ => rfl, rfl⟩).run alone
  exact ⟨alone.flatMap fun r => [(0, r), (1, r)], fun g r => (congrFun (ht.todo g) r).trans (hend r),
    ht.file.trans (by rw [C91_complete_partial ω c hT prm fuel w w' o hr acts ha [] alone hend])⟩

/-- the actions of all groups, with the group on the records -/
abbrev marked (acts : Fin G → Fin (m + 1) → List (FileAct (JsonRec ℝ))) :
    Fin G → Fin (m + 1) → List (FileAct (Option (Fin G) × JsonRec ℝ)) :=
  fun g r => (acts g r).map (FileAct.mark (some g))

theorem marked_first (ω : (g : Fin G) → (r : Fin (m + 1)) → ℕ → Reply (own g) (n g) (b g) r)
    (c : (g : Fin G) → (r : Fin (m + 1)) → LCfg (own g) (n g) (b g) r) (prm : Fin G → NlcgParams ℝ) (fuel : ℕ)
    (w w' : (g : Fin G) → (r : Fin (m + 1)) → NState ℝ (RState (own g) (n g) (b g) r))
    (o : Fin G → Fin (m + 1) → Res (Info ℝ))
    (hr : ∀ g r, rankRun (ω g r) (c g r) (prm g) fuel (w g r) = some (o g r, w' g r))
    (acts : Fin G → Fin (m + 1) → List (FileAct (JsonRec ℝ)))
    (ha : ∀ g r, RankActs (ω g r) (c g r) (w g r) (w' g r) (acts g r)) (g : Fin G) (r : Fin (m + 1)) :
    ∀ x ∈ appended (marked acts g r), x.1 = some g ∧ r = 0 := by
  intro x hx
  rw [appended_mark] at hx
  obtain ⟨y, hy, rfl⟩ := List.mem_map.1 hx
  refine ⟨rfl, ?_⟩
  by_contra h0
  have hp := (ha g r).prog (hr g r)
  cases hp' : acts g r <;> rw [hp'] at hy hp
  · simp [appended] at hy
  · cases hp with
    | failed => simp [appended] at hy
    | ran rest h1 h2 =>
      have : appended rest = [] := h2 h0
      simp only [appended, List.filterMap_cons] at hy this
      rw [this] at hy
      simp at hy

/-- **C105.** Whatever the schedule, and whatever earlier runs have left: when all processes are through, the records of a
group in the file are the last so many it has written, in the order in which it has written them, and no record of an
earlier run is left. -/
theorem C105_last_partial (ω : (g : Fin G) → (r : Fin (m + 1)) → ℕ → Reply (own g) (n g) (b g) r)
    (c : (g : Fin G) → (r : Fin (m + 1)) → LCfg (own g) (n g) (b g) r) (hT : ∀ g r, (c g r).T ≠ 0)
    (prm : Fin G → NlcgParams ℝ) (fuel : ℕ)
    (w w' : (g : Fin G) → (r : Fin (m + 1)) → NState ℝ (RState (own g) (n g) (b g) r))
    (o : Fin G → Fin (m + 1) → Res (Info ℝ))
    (hr : ∀ g r, rankRun (ω g r) (c g r) (prm g) fuel (w g r) = some (o g r, w' g r))
    (acts : Fin G → Fin (m + 1) → List (FileAct (JsonRec ℝ)))
    (ha : ∀ g r, RankActs (ω g r) (c g r) (w g r) (w' g r) (acts g r))
    (file0 : List (JsonRec ℝ)) (sched : List (Fin G × Fin (m + 1)))
    (s' : GroupState G (m + 1) (Option (Fin G) × JsonRec ℝ))
    (hs' : s' = groupRun ⟨file0.map (none, ·), fun _ _ => [], marked acts⟩ sched)
    (hend : ∀ g r, s'.todo g r = []) (g : Fin G) :
    recordsOf (some g) s'.file <:+ (w' g 0).file ∧ recordsOf none s'.file = [] := by
  have hdone := done_all (acts := marked acts) sched ⟨file0.map (none, ·), fun _ _ => [], marked acts⟩ (fun _ _ => rfl)
  have hd : ∀ g r, s'.done g r = marked acts g r := fun g r => by
    have := hdone g r
    rw [← hs', hend, List.append_nil] at this
    exact this
  have hfile : ∀ g, appended (acts g 0) = (w' g 0).file := fun g => ((ha g 0).appended_eq (hr g 0) (hT g 0)).2
  constructor
  · have h := latest (tag := Prod.fst) (marked_first ω c prm fuel w w' o hr acts ha) sched
      ⟨file0.map (none, ·), fun _ _ => [], marked acts⟩ (fun _ _ => rfl) (fun g => by simp [appended]) g
    rw [← hs', hd, appended_mark, hfile] at h
    have := h.map Prod.snd
    rw [List.map_map] at this
    simpa [recordsOf, Function.comp_def] using this
  · have h := old_gone (old := fun x : Option (Fin G) × JsonRec ℝ => x.1 = none) (acts := marked acts) (file0.map (none, ·))
      (fun g r x hx => by simp [(marked_first ω c prm fuel w w' o hr acts ha g r x hx).1])
      (fun g r => by
        have hp := (ha g r).prog (hr g r)
        show (acts g r).map (FileAct.mark (some g)) = [] ∨
          ∃ l, (acts g r).map (FileAct.mark (some g)) = FileAct.remove :: l
        generalize acts g r = l at hp
        cases hp <;> simp [FileAct.mark]) sched ⟨file0.map (none, ·), fun _ _ => [], marked acts⟩ (fun _ _ => rfl)
        (.inl ⟨fun _ _ => rfl, rfl⟩)
    rw [← hs'] at h
    rcases h with ⟨h, -⟩ | h
    · have := h g 0
      rw [hd, List.map_eq_nil_iff] at this
      exact absurd this ((ha g 0).appended_eq (hr g 0) (hT g 0)).1
    · simp only [recordsOf, List.map_eq_nil_iff, List.filter_eq_nil_iff, decide_eq_true_eq]
      exact h

/-- If every process has removed the file before the first record is written, then in the end the records of every group
are in the file, all of them, once, in their order. -/
theorem C105_complete_partial (ω : (g : Fin G) → (r : Fin (m + 1)) → ℕ → Reply (own g) (n g) (b g) r)
    (c : (g : Fin G) → (r : Fin (m + 1)) → LCfg (own g) (n g) (b g) r) (hT : ∀ g r, (c g r).T ≠ 0)
    (prm : Fin G → NlcgParams ℝ) (fuel : ℕ)
    (w w' : (g : Fin G) → (r : Fin (m + 1)) → NState ℝ (RState (own g) (n g) (b g) r))
    (o : Fin G → Fin (m + 1) → Res (Info ℝ))
    (hr : ∀ g r, rankRun (ω g r) (c g r) (prm g) fuel (w g r) = some (o g r, w' g r))
    (acts : Fin G → Fin (m + 1) → List (FileAct (JsonRec ℝ)))
    (ha : ∀ g r, RankActs (ω g r) (c g r) (w g r) (w' g r) (acts g r))
    (file0 : List (JsonRec ℝ)) (before after : List (Fin G × Fin (m + 1)))
    (s1 s' : GroupState G (m + 1) (Option (Fin G) × JsonRec ℝ))
    (hs1 : s1 = groupRun ⟨file0.map (none, ·), fun _ _ => [], marked acts⟩ before)
    (hs' : s' = groupRun s1 after)
    (hall : ∀ g r, .remove ∉ s1.todo g r) (hno : ∀ g, appended (s1.done g 0) = [])
    (hend : ∀ g r, s'.todo g r = []) (g : Fin G) :
    recordsOf (some g) s'.file = (w' g 0).file := by
  have hd1 : ∀ g r, s1.done g r ++ s1.todo g r = marked acts g r := by
    have := done_all (acts := marked acts) before ⟨file0.map (none, ·), fun _ _ => [], marked acts⟩ (fun _ _ => rfl)
    rw [← hs1] at this
    exact this
  have hd : s'.done g 0 = marked acts g 0 := by
    have := done_all (acts := marked acts) after s1 hd1 g 0
    rw [← hs', hend, List.append_nil] at this
    exact this
  have hf : ∀ g, (s1.file.filter fun x => x.1 = some g) = appended (s1.done g 0) := fun g => by
    have h := latest (tag := Prod.fst) (marked_first ω c prm fuel w w' o hr acts ha) before
      ⟨file0.map (none, ·), fun _ _ => [], marked acts⟩ (fun _ _ => rfl) (fun g => by simp [appended]) g
    rw [← hs1, hno] at h
    rw [hno, List.suffix_nil.1 h]
  have h := complete (tag := Prod.fst) (marked_first ω c prm fuel w w' o hr acts ha) after s1 hd1 hall hf g
  rw [← hs', hd, appended_mark, ((ha g 0).appended_eq (hr g 0) (hT g 0)).2] at h
  rw [recordsOf, h, List.map_map]
  simp [Function.comp_def]

end

/-! ## Concrete cases -/

/-- a process on its own is never held up -/
theorem solo_ends {β : Type} (l : List (FileAct β)) (s : FileState 1 β) (hs : s.todo 0 = l) (r : Fin 1) :
    (fileRun s (List.replicate l.length 0)).todo r = [] := by
  obtain rfl : r = 0 := Subsingleton.elim _ _
  induction l generalizing s with
  | nil => exact hs
  | cons a l ih =>
    refine ih (fileStep s 0) ?_
    have hb : ¬s.blocked 0 a := by
      cases a <;> simp [FileState.blocked]
    rw [fileStep, hs]
    simp [hb]

/-- Two serial calculations in one directory, the run of `duoHost` and itself with other parameters: there is a
schedule after which only the records of the second are in the file. -/
example (prm : Fin 2 → NlcgParams ℝ) (fuel : ℕ) (o : Fin 2 → Res (Info ℝ))
    (w' : Fin 2 → NState ℝ (SState (LState duoN duoB) duoN duoB))
    (h : ∀ g, solve duoHost duoCfg (prm g) fuel 0 duoStart = some (o g, w' g)) (file0 : List (JsonRec ℝ)) :
    ∃ acts : Fin 2 → Fin 1 → List (FileAct (JsonRec ℝ)), (∀ g, appended (acts g 0) = (w' g).file) ∧ ∃ sched,
      (∀ g r, (groupRun ⟨file0, fun _ _ => [], acts⟩ sched).todo g r = []) ∧
      (groupRun ⟨file0, fun _ _ => [], acts⟩ sched).file = (w' 1).file := by
  choose L _ hr using fun g => C41_lockstep (own := (fun _ => 0 : Fin 2 → Fin 1)) duoHost duoCfg
    (fun _ ek => .ok (0, occs .gauss 300 2 ek 0)) (fun _ => rfl) (fun _ => rfl) (prm g) fuel duoStart (w' g) (o g) (h g)
  have hω : ∀ g r, ∃ ω, Provides ω (L g r) := fun g r =>
    ⟨fun i => if h : i < (L g r).length then ((L g r)[i]).2 else .real 0, fun i h => dif_pos h⟩
  choose ω hω using hω
  choose v hv using fun g r => hr g r (ω g r) (hω g r)
  choose acts ha using fun g r => RankActs.exists (ω := ω g r)
    (c := localCfg (fun _ => 0 : Fin 2 → Fin 1) duoCfg (fun _ ek => .ok (0, occs .gauss 300 2 ek 0)) r)
    (w := rankStart (fun _ => 0 : Fin 2 → Fin 1) duoHost duoStart r) (w' := v g r)
  have hT : ∀ r : Fin 1,
      (localCfg (fun _ => 0 : Fin 2 → Fin 1) duoCfg (fun _ ek => .ok (0, occs .gauss 300 2 ek 0)) r).T ≠ 0 := fun r => by
    norm_num [localCfg, duoCfg]
  have hfile : ∀ g, (v g 0).file = (w' g).file := fun g => (hv g 0).2.2.2.2.2.2.2 rfl
  refine ⟨acts, fun g => ?_, ?_⟩
  · rw [((ha g 0).appended_eq (hv g 0).1 (hT 0)).2, hfile]
  · rw [← hfile 1]
    exact C105_not_kept (m := 0) ω _ (fun _ => hT) prm fuel _ v (fun g _ => o g) (fun g r => (hv g r).1) acts ha file0
      (fun g => List.replicate (acts g 0).length 0) (fun g file r => solo_ends _ _ rfl r)

/-- two groups with two ranks each, see `raceActs` -/
def groupActs (g : Fin 2) (r : Fin 2) : List (FileAct (Option (Fin 2) × ℕ)) := (raceActs r).map (FileAct.mark (some g))

/-- one after the other: the records of group 0 are lost -/
example : (groupRun ⟨[(none, 7)], fun _ _ => [], groupActs⟩
    ([0, 1, 0, 1, 0, 1, 0, 0].map ((0 : Fin 2), ·) ++ [0, 1, 0, 1, 0, 1, 0, 0].map ((1 : Fin 2), ·))).file
      = [(some 1, 0), (some 1, 1)] := by
  decide

/-- at the same time: all records -/
example : (groupRun ⟨[(none, 7)], fun _ _ => [], groupActs⟩
    ([0, 1, 0, 1, 0, 1, 0, 0].flatMap fun r => [((0 : Fin 2), r), (1, r)])).file
      = [(some 0, 0), (some 1, 0), (some 0, 1), (some 1, 1)] := by
  decide

/-- group 1 starts when group 0 has written one record: this record is lost -/
example : (groupRun ⟨[(none, 7)], fun _ _ => [], groupActs⟩
    ([0, 1, 0, 1, 0, 1, 0].map ((0 : Fin 2), ·) ++ [0, 1, 0, 1, 0, 1].map ((1 : Fin 2), ·) ++ [(0, 0), (1, 0), (1, 0)])).file
      = [(some 0, 1), (some 1, 0), (some 1, 1)] := by
  decide

end Nlcg
