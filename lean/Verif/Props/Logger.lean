import Verif.Spec.Logger
import Mathlib.Tactic.Common
import Mathlib.Data.List.Nodup
import Mathlib.Data.List.Induction

/-!
# The logger (`C50`, `C51`)
-/

namespace Nlcg

/-! ## Routing -/

theorem logText_eq (ps : List String) (m : String) : logText ps m = Spec.prefixed ps m := by
  induction ps with
  | nil => simp [logText, Spec.prefixed]
  | cons p ps ih =>
    have : logText (p :: ps) m = p ++ "::" ++ logText ps m := rfl
    rw [this, ih]
    simp [Spec.prefixed]

theorem logFile_append (pid : ℕ) (ops : List LogOp) (o : LogOp) :
    Spec.logFile pid (ops ++ [o]) =
      if Spec.opens pid o then some (ops.countP (Spec.opens pid)) else Spec.logFile pid ops := by
  by_cases h : Spec.opens pid o <;> simp [Spec.logFile, List.countP_append, h]

theorem stdoutOn_append (ops : List LogOp) (o : LogOp) :
    Spec.StdoutOn (ops ++ [o]) ↔ match Spec.switch o with
      | some v => v = true
      | none => Spec.StdoutOn ops := by
  rw [Spec.StdoutOn, List.filterMap_append]
  cases h : Spec.switch o with
  | none => simp [h, Spec.StdoutOn]
  | some v => cases v <;> simp [h]

theorem logRun_append : ∀ (ops ops' : List LogOp) (s : LogState),
    logRun s (ops ++ ops') = (logRun s ops >>= fun s' => logRun s' ops')
  | [], _, _ => rfl
  | o :: ops, ops', s => by
    rw [List.cons_append, logRun, logRun]
    rcases logStep s o with s' | e | _ | _
    · exact logRun_append ops ops' s'
    all_goals rfl

/-- what the members mean -/
structure LogInv (r : ℕ) (ops : List LogOp) (s : LogState) : Prop where
  pid : s.pid = r
  stream : s.stream = Spec.logFile r ops
  opened : s.opened = ops.countP (Spec.opens r)
  detached : s.detached = false ↔ Spec.StdoutOn ops

theorem LogInv.step {r : ℕ} {ops : List LogOp} {s s' : LogState} {o : LogOp} (h : LogInv r ops s)
    (hs : logStep s o = .ok s') : LogInv r (ops ++ [o]) s' := by
  have hf := logFile_append r ops o
  have hd := stdoutOn_append ops o
  have hc := List.countP_append (p := Spec.opens r) (l₁ := ops) (l₂ := [o])
  cases o <;> simp only [logStep] at hs <;> simp only [Spec.opens, Spec.switch] at hf hd
  case attachFileMaster =>
    split at hs <;> rename_i hp <;> rw [h.pid] at hp <;> cases hs
    · refine ⟨h.pid, ?_, ?_, ?_⟩
      · subst hp
        exact (congrArg some h.opened).trans hf.symm
      · rw [hc]
        simp [Spec.opens, h.opened, hp]
      · simpa [hd] using h.detached
    · refine ⟨h.pid, ?_, ?_, ?_⟩
      · simp [hf, hp, h.stream]
      · simp [hc, Spec.opens, h.opened, hp]
      · simpa [hd] using h.detached
  case popPrefix =>
    split at hs <;> cases hs
    refine ⟨h.pid, ?_, ?_, ?_⟩
    · simp [hf, h.stream]
    · simp [hc, Spec.opens, h.opened]
    · simpa [hd] using h.detached
  all_goals
    cases hs
    refine ⟨h.pid, ?_, ?_, ?_⟩
    · simp [hf, h.stream, h.opened]
    · simp [hc, Spec.opens, h.opened]
    · simp [hd, h.detached]

theorem LogInv.run {r : ℕ} (ops : List LogOp) : ∀ {s : LogState}, logRun (logInit r) ops = .ok s →
    LogInv r ops s := by
  induction ops using List.reverseRecOn with
  | nil =>
    intro s hs
    cases hs
    exact ⟨rfl, rfl, rfl, by simp [logInit, Spec.StdoutOn]⟩
  | append_singleton ops o ih =>
    intro s hs
    rw [logRun_append] at hs
    rcases h : logRun (logInit r) ops with s1 | e | _ | _ <;> rw [h] at hs
    · replace hs : logRun s1 [o] = .ok s := hs
      rw [logRun] at hs
      rcases h1 : logStep s1 o with s2 | e | _ | _ <;> rw [h1] at hs
      · cases hs
        exact (ih h).step h1
      all_goals cases hs
    all_goals cases hs

/-- the part of the text written that goes to `k` -/
def textFor (k : Sink) (ws : List (Sink × String)) : List String :=
  ws.filterMap fun w => if w.1 = k then some w.2 else none

theorem received_append (s : LogState) (ws : List (Sink × String)) (k : Sink) :
    Spec.received { s with written := s.written ++ ws } k = Spec.received s k ++ textFor k ws := by
  simp [Spec.received, textFor, List.filterMap_append]

theorem logWrites_stdout (s : LogState) (msg : String) : textFor .stdout (logWrites s msg) =
    if s.pid = 0 ∧ s.detached = false then [Spec.prefixed s.prefixes msg] else [] := by
  rcases hf : s.stream with _ | f <;> by_cases h1 : s.pid = 0 <;> by_cases h2 : s.detached = false <;>
    simp [textFor, logWrites, logText_eq, hf, h1, h2]

theorem logWrites_file (s : LogState) (msg : String) (f : ℕ) : textFor (.file f) (logWrites s msg) =
    if s.stream = some f then [Spec.prefixed s.prefixes msg] else [] := by
  rcases hf : s.stream with _ | g <;> by_cases h1 : s.pid = 0 <;> by_cases h2 : s.detached = false <;>
    simp [textFor, logWrites, logText_eq, hf, h1, h2] <;> by_cases hg : g = f <;> simp [hg]

theorem textFor_flatMap (k : Sink) (g : String → List (Sink × String)) : ∀ ms : List String,
    textFor k (ms.flatMap g) = ms.flatMap fun m => textFor k (g m)
  | [] => rfl
  | m :: ms => by
    rw [List.flatMap_cons, List.flatMap_cons, ← textFor_flatMap k g ms, textFor, textFor, textFor,
      List.filterMap_append]

/-- **C51**: after any sequence of calls on rank `r`, a message is written once to the log file if one is
attached on this rank (the latest one), once to standard output if this is rank 0 and standard output is
attached, and nowhere else; what is written is the message with the current prefixes. -/
theorem C51_message {r : ℕ} {ops : List LogOp} {s : LogState} (hs : logRun (logInit r) ops = .ok s)
    (msg : String) : ∃ s', logStep s (.write msg) = .ok s' ∧ ∀ k,
      (Spec.Goes r ops False k → Spec.received s' k = Spec.received s k ++ [Spec.prefixed s.prefixes msg]) ∧
      (¬ Spec.Goes r ops False k → Spec.received s' k = Spec.received s k) := by
  have h := LogInv.run ops hs
  refine ⟨_, rfl, fun k => ?_⟩
  rw [received_append]
  cases k with
  | stdout =>
    rw [logWrites_stdout, Spec.Goes, ← h.detached, ← h.pid, or_false]
    exact ⟨fun hg => by rw [if_pos hg], fun hg => by rw [if_neg hg, List.append_nil]⟩
  | file f =>
    rw [logWrites_file, Spec.Goes, ← h.stream]
    exact ⟨fun hg => by rw [if_pos hg], fun hg => by rw [if_neg hg, List.append_nil]⟩

/-- **C51** for messages marked `TO_STDOUT`: they go to the log file as above and, on rank 0, to standard
output even if it is detached. -/
theorem C51_marked {r : ℕ} {ops : List LogOp} {s : LogState} (hs : logRun (logInit r) ops = .ok s)
    (msgs : List String) : ∃ s', logStep s (.writeStdout msgs) = .ok s' ∧ ∀ k,
      (Spec.Goes r ops True k →
        Spec.received s' k = Spec.received s k ++ msgs.map (Spec.prefixed s.prefixes)) ∧
      (¬ Spec.Goes r ops True k → Spec.received s' k = Spec.received s k) := by
  have h := LogInv.run ops hs
  refine ⟨_, rfl, fun k => ?_⟩
  rw [received_append, textFor_flatMap]
  cases k with
  | stdout =>
    simp only [logWrites_stdout, Spec.Goes, or_true, and_true]
    simp only [logInit, h.pid]
    exact ⟨fun hg => by simp [hg, ← List.map_eq_flatMap], fun hg => by simp [hg]⟩
  | file f =>
    simp only [logWrites_file, Spec.Goes]
    rw [← h.stream]
    exact ⟨fun hg => by simp [hg, ← List.map_eq_flatMap], fun hg => by simp [hg]⟩

/-- adding text that was written before does not change what a call does -/
theorem logRun_written (ws : List (Sink × String)) : ∀ (ops : List LogOp) {s s' : LogState},
    logRun s ops = .ok s' → ∀ w w', s.written = w ++ w' →
    ∃ w2, s'.written = w ++ w' ++ w2 ∧
      logRun { s with written := w ++ ws ++ w' } ops = .ok { s' with written := w ++ ws ++ w' ++ w2 } := by
  intro ops
  induction ops with
  | nil =>
    intro s s' hs w w' hw
    cases hs
    exact ⟨[], by simp [hw], by simp [logRun]⟩
  | cons o ops ih =>
    intro s s' hs w w' hw
    rw [logRun] at hs
    rcases h1 : logStep s o with s1 | e | _ | _ <;> rw [h1] at hs
    · replace hs : logRun s1 ops = .ok s' := hs
      obtain ⟨wo, h2, h3⟩ : ∃ wo, s1.written = w ++ (w' ++ wo) ∧
          logStep { s with written := w ++ ws ++ w' } o = .ok { s1 with written := w ++ ws ++ (w' ++ wo) } := by
        cases o <;> simp only [logStep] at h1 ⊢
        case attachFileMaster =>
          split at h1 <;> rename_i hp <;> cases h1
          · exact ⟨[], by simp [hw], by simp [hp]⟩
          · exact ⟨[], by simp [hw], by simp [hp]⟩
        case popPrefix =>
          split at h1 <;> rename_i hp <;> cases h1
          exact ⟨[], by simp [hw], by simp [hp]⟩
        case write msg =>
          cases h1
          exact ⟨logWrites s msg, by simp [hw], by simp [logWrites]⟩
        case writeStdout msgs =>
          cases h1
          exact ⟨_, by rw [hw, List.append_assoc], by rw [List.append_assoc]⟩
        all_goals
          cases h1
          exact ⟨[], by simp [hw], by simp⟩
      obtain ⟨w2, h4, h5⟩ := ih hs w (w' ++ wo) h2
      refine ⟨wo ++ w2, by rw [h4]; simp, ?_⟩
      rw [logRun, h3]
      simpa using h5
    all_goals cases hs

/-- **C51**: marking messages `TO_STDOUT` does not change where anything later goes: the run with the marked
messages writes what the run without them writes, plus the marked messages at their place. -/
theorem C51_marking_is_local {r : ℕ} {ops ops' : List LogOp} {s s₂ : LogState} (msgs : List String)
    (h₁ : logRun (logInit r) ops = .ok s) (h₂ : logRun (logInit r) (ops ++ ops') = .ok s₂) :
    ∃ s₃ marked later, logRun (logInit r) (ops ++ .writeStdout msgs :: ops') = .ok s₃ ∧
      s₂.written = s.written ++ later ∧ s₃.written = s.written ++ marked ++ later ∧
      ∀ w ∈ marked, ∃ m ∈ msgs, w.2 = Spec.prefixed s.prefixes m := by
  rw [logRun_append, h₁] at h₂
  replace h₂ : logRun s ops' = .ok s₂ := h₂
  let tmp : LogState := { (logInit s.pid) with prefixes := s.prefixes, stream := s.stream, detached := false }
  obtain ⟨later, h3, h4⟩ := logRun_written (msgs.flatMap (logWrites tmp)) ops' h₂ s.written [] (by simp)
  rw [List.append_nil] at h3 h4
  refine ⟨{ s₂ with written := s.written ++ msgs.flatMap (logWrites tmp) ++ later },
    msgs.flatMap (logWrites tmp), later, ?_, h3, rfl, ?_⟩
  · rw [logRun_append, h₁]
    exact h4
  · intro w hw
    obtain ⟨m, hm, hw⟩ := List.mem_flatMap.1 hw
    refine ⟨m, hm, ?_⟩
    rw [← logText_eq]
    rcases List.mem_append.1 hw with hw | hw
    · split at hw
      · simp only [List.mem_singleton] at hw
        rw [hw]
      · simp at hw
    · split at hw
      · simp only [List.mem_singleton] at hw
        rw [hw]
      · simp at hw

/-- rank 0, a log file, standard output detached, a prefix; a plain and a marked message -/
example : logRun (logInit 0) [.attachFileMaster, .detachStdout, .pushPrefix "a", .write "x",
      .writeStdout ["y"], .write "z"] =
    .ok ⟨["a"], some 0, true, 0, 1,
      [(.file 0, "a::x"), (.file 0, "a::y"), (.stdout, "a::y"), (.file 0, "a::z")]⟩ := by
  simp [logRun, logStep, logInit, logWrites, logText, bind, Res.bind]

/-! ## Several threads -/

/-- **C50** is false of the code: no lock is taken, and a message can be lost and another written twice. -/
theorem C50_not_intact : ∃ (sched : List ℕ) (s : SharedLog),
    sharedRun (sharedInit ["a", "b"]) sched = some s ∧ (∀ t ∈ s.thread, t.done = 3) ∧
    s.file = ["b", "b"] := by
  refine ⟨[0, 0, 1, 1, 0, 1], _, rfl, ?_, ?_⟩ <;> decide +kernel

/-- ... and two messages can be mixed -/
theorem C50_not_separate : ∃ (sched : List ℕ) (s : SharedLog),
    sharedRun (sharedInit ["a", "b"]) sched = some s ∧ (∀ t ∈ s.thread, t.done = 3) ∧
    s.file = ["ab", "ab"] := by
  refine ⟨[0, 1, 0, 1, 0, 1], _, rfl, ?_, ?_⟩ <;> decide +kernel

theorem sharedRun_append : ∀ (a b : List ℕ) (s : SharedLog),
    sharedRun s (a ++ b) = (sharedRun s a).bind fun s' => sharedRun s' b
  | [], _, _ => rfl
  | t :: a, b, s => by
    rw [List.cons_append, sharedRun, sharedRun]
    cases sharedStep s t with
    | none => rfl
    | some s' => exact sharedRun_append a b s'

theorem sharedRun_one {s : SharedLog} {t : ℕ} {m : String} (h : s.thread[t]? = some ⟨m, 0⟩) :
    sharedRun s [t, t, t] = some ⟨m, s.file ++ [m], s.thread.set t ⟨m, 3⟩⟩ := by
  have ht : t < s.thread.length := (List.getElem?_eq_some_iff.1 h).1
  have h1 : ∀ x : LogThread, (s.thread.set t x)[t]? = some x := fun x => by simp [ht]
  have e1 : sharedStep s t = some ⟨"", s.file, s.thread.set t ⟨m, 1⟩⟩ := by simp only [sharedStep, h]
  have e2 : sharedStep ⟨"", s.file, s.thread.set t ⟨m, 1⟩⟩ t = some ⟨m, s.file, s.thread.set t ⟨m, 2⟩⟩ := by
    simp only [sharedStep, h1, String.empty_append, List.set_set]
  have e3 : sharedStep ⟨m, s.file, s.thread.set t ⟨m, 2⟩⟩ t =
      some ⟨m, s.file ++ [m], s.thread.set t ⟨m, 3⟩⟩ := by
    simp only [sharedStep, h1, List.set_set]
  simp only [sharedRun, e1, e2, e3]

theorem sharedRun_serial (msgs : List String) : ∀ (ord : List ℕ) (s : SharedLog), ord.Nodup →
    (∀ t ∈ ord, ∃ m, msgs[t]? = some m ∧ s.thread[t]? = some ⟨m, 0⟩) →
    ∃ s', sharedRun s (ord.flatMap fun t => [t, t, t]) = some s' ∧
      s'.file = s.file ++ ord.filterMap (msgs[·]?)
  | [], s, _, _ => ⟨s, rfl, by simp⟩
  | t :: ord, s, hn, h => by
    obtain ⟨m, hm, ht⟩ := h t (by simp)
    obtain ⟨s', h1, h2⟩ := sharedRun_serial msgs ord ⟨m, s.file ++ [m], s.thread.set t ⟨m, 3⟩⟩
      (List.nodup_cons.1 hn).2 (fun u hu => by
        obtain ⟨m', hm', hu'⟩ := h u (by simp [hu])
        have : t ≠ u := fun he => (List.nodup_cons.1 hn).1 (he ▸ hu)
        exact ⟨m', hm', by simp [List.getElem?_set_ne this, hu']⟩)
    refine ⟨s', ?_, ?_⟩
    · rw [List.flatMap_cons, sharedRun_append, sharedRun_one ht]
      exact h1
    · rw [h2]
      simp [hm]

/-- **C50** when calls do not overlap: every message of every thread appears once, intact, in the order of
the calls. Missing: overlapping calls, see `C50_not_intact`. -/
theorem C50_serial_partial (msgs : List String) {ord : List ℕ} (hp : ord.Perm (List.range msgs.length)) :
    ∃ s, sharedRun (sharedInit msgs) (ord.flatMap fun t => [t, t, t]) = some s ∧
      s.file = ord.filterMap (msgs[·]?) ∧ s.file.Perm msgs := by
  obtain ⟨s, h1, h2⟩ := sharedRun_serial msgs ord (sharedInit msgs) (hp.nodup_iff.2 List.nodup_range)
    (fun t ht => by
      have : t < msgs.length := by simpa using hp.mem_iff.1 ht
      exact ⟨msgs[t], by simp [this], by simp [sharedInit, this]⟩)
  replace h2 : s.file = ord.filterMap (msgs[·]?) := by simpa [sharedInit] using h2
  refine ⟨s, h1, h2, ?_⟩
  rw [h2]
  refine (hp.filterMap _).trans (List.Perm.of_eq ?_)
  have : ∀ l : List String, (List.range l.length).filterMap (l[·]?) = l := by
    intro l
    induction l with
    | nil => rfl
    | cons a l ih => rw [List.length_cons, List.range_succ_eq_map, List.filterMap_cons]; simpa [List.filterMap_map] using ih
  exact this msgs

example : ∃ s, sharedRun (sharedInit ["a", "b"]) [1, 1, 1, 0, 0, 0] = some s ∧ s.file = ["b", "a"] :=
  ⟨_, rfl, by decide +kernel⟩

end Nlcg
