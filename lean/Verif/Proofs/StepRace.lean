import Verif.Model.StepRace
import Verif.Proofs.Spmd

/-! # Helpers for the file `nlcg.json` under all schedules -/

namespace Nlcg
open FileAct

section
variable {β : Type} {R : ℕ}

theorem appended_append (l m : List (FileAct β)) : appended (l ++ m) = appended l ++ appended m :=
  List.filterMap_append

theorem entered_append (l m : List (FileAct β)) : entered (l ++ m) = entered l + entered m :=
  List.countP_append

/-- `remove` first, then a collective operation, then anything but `remove`; records on rank 0 only -/
inductive Prog (first : Prop) : List (FileAct β) → Prop
  | refused : Prog first []
  | failed : Prog first [.remove]
  | ran (rest : List (FileAct β)) : .remove ∉ rest → (¬ first → appended rest = []) →
      Prog first (.remove :: .enter :: .leave :: rest)

/-- what has been done and what comes next -/
inductive At (first : Prop) : List (FileAct β) → List (FileAct β) → Prop
  | zero : At first [] []
  | start (t : List (FileAct β)) : At first [] (.remove :: t)
  | gone : At first [.remove] []
  | removed (t : List (FileAct β)) : At first [.remove] (.enter :: t)
  | inside (t : List (FileAct β)) : At first [.remove, .enter] (.leave :: t)
  | past (d t : List (FileAct β)) : .remove ∉ t → (¬ first → appended d = [] ∧ appended t = []) →
      At first (.remove :: .enter :: .leave :: d) t

theorem Prog.at {first : Prop} {l d t : List (FileAct β)} (h : Prog first l) (e : d ++ t = l) :
    At first d t := by
  cases h with
  | refused =>
    obtain ⟨rfl, rfl⟩ := List.append_eq_nil_iff.1 e
    exact .zero
  | failed =>
    cases d with
    | nil => cases e; exact .start _
    | cons a d =>
      simp only [List.cons_append, List.cons.injEq, List.append_eq_nil_iff] at e
      obtain ⟨rfl, rfl, rfl⟩ := e
      exact .gone
  | ran rest h1 h2 =>
    match d, e with
    | [], e => cases e; exact .start _
    | [a], e => cases e; exact .removed _
    | [a, c], e => cases e; exact .inside _
    | a :: c :: x :: d, e =>
      simp only [List.cons_append, List.cons.injEq] at e
      obtain ⟨rfl, rfl, rfl, rfl⟩ := e
      refine .past d t (fun h => h1 (List.mem_append_right _ h)) fun h => ?_
      have := h2 h
      rw [appended_append, List.append_eq_nil_iff] at this
      exact this

variable {m : ℕ}

/-- what holds at any time -/
structure FInv (acts : Fin (m + 1) → List (FileAct β)) (s : FileState (m + 1) β) : Prop where
  split : ∀ r, s.done r ++ s.todo r = acts r
  sync : (∃ r, 3 ≤ (s.done r).length) → ∀ r, 2 ≤ (s.done r).length
  file : (∀ r, s.done r ≠ []) → s.file = appended (s.done 0)

theorem At.entered_pos {first : Prop} {d t : List (FileAct β)} (h : At first d t) (e : 1 ≤ entered d) :
    2 ≤ d.length := by
  cases h <;> simp [entered, isEnter] at e ⊢

theorem At.appended_nil {first : Prop} {d t : List (FileAct β)} (h : At first d t) (e : d.length < 3) :
    appended d = [] := by
  cases h
  case past => simp only [List.length_cons] at e; omega
  all_goals rfl

theorem FInv.step {acts : Fin (m + 1) → List (FileAct β)} (hp : ∀ r : Fin (m + 1), Prog (r = 0) (acts r))
    {s : FileState (m + 1) β} (h : FInv acts s) (r : Fin (m + 1)) : FInv acts (fileStep s r) := by
  have hat : ∀ r : Fin (m + 1), At (r = 0) (s.done r) (s.todo r) := fun r => (hp r).at (h.split r)
  rw [fileStep]
  cases htodo : s.todo r with
  | nil => exact h
  | cons a rest =>
    simp only
    split
    · exact h
    · next hb =>
      have hr := hat r
      have grow : ∀ r', (s.done r').length ≤ (Function.update s.done r (s.done r ++ [a]) r').length := by
        intro r'
        by_cases e : r' = r
        · subst e; simp
        · simp [Function.update_of_ne e]
      refine ⟨fun r' => ?_, ?_, ?_⟩
      · by_cases e : r' = r
        · subst e
          simpa [htodo] using h.split r'
        · simpa [Function.update_of_ne e] using h.split r'
      · rintro ⟨q, hq⟩ r'
        by_cases old : ∃ r, 3 ≤ (s.done r).length
        · exact (h.sync old r').trans (grow r')
        · push Not at old
          have eq : q = r := by
            by_contra e
            simp only [Function.update_of_ne e] at hq
            exact absurd (old q) (by omega)
          subst eq
          simp only [Function.update_self, List.length_append, List.length_singleton] at hq
          have l2 : (s.done q).length = 2 := by have := old q; omega
          -- the third action is `leave`
          rw [htodo] at hr
          generalize hd : s.done q = d at hr l2 grow ⊢
          cases hr with
          | start t => simp at l2
          | removed t => simp at l2
          | past d t => simp at l2
          | inside t =>
            simp only [FileState.blocked, not_exists, not_lt] at hb
            have := hb r'
            rw [hd] at this
            exact ((hat r').entered_pos ((by simp [entered, isEnter] : 1 ≤ entered _).trans this)).trans
              (grow r')
      · intro hall
        by_cases old : ∀ r, s.done r ≠ []
        · have hf := h.file old
          have hr0 := old r
          rw [htodo] at hr
          have key : a ≠ .remove ∧ (∀ x, a = .append x → r = 0) := by
            generalize hd : s.done r = d at hr hr0
            cases hr with
            | start t => exact absurd rfl hr0
            | removed t => exact ⟨by simp, by simp⟩
            | inside t => exact ⟨by simp, by simp⟩
            | past d t h1 h2 =>
              refine ⟨fun e => h1 (by simp [e]), fun x e => ?_⟩
              by_contra hne
              have := (h2 hne).2
              simp [e, appended] at this
          by_cases e : r = 0
          · subst e
            simp only [Function.update_self, appended_append]
            rw [← hf]
            cases a <;> simp_all [effect, appended]
          · simp only [Function.update_of_ne (Ne.symm e)]
            rw [← hf]
            cases a <;> simp_all [effect]
        · push Not at old
          obtain ⟨q, hq⟩ := old
          have eq : q = r := by
            by_contra e
            have := hall q
            simp only [Function.update_of_ne e] at this
            exact this hq
          subst eq
          have young : ∀ r, (s.done r).length < 3 := by
            intro r'
            by_contra hge
            have := h.sync ⟨r', by omega⟩ q
            simp [hq] at this
          rw [htodo, hq] at hr
          cases hr with
          | start t =>
            show [] = _
            by_cases e : q = 0
            · subst e
              simp [hq, appended]
            · simp only [Function.update_of_ne (Ne.symm e)]
              exact ((hat 0).appended_nil (young 0)).symm

theorem FInv.run {acts : Fin (m + 1) → List (FileAct β)} (hp : ∀ r : Fin (m + 1), Prog (r = 0) (acts r))
    (sched : List (Fin (m + 1))) : ∀ {s : FileState (m + 1) β}, FInv acts s →
    FInv acts (fileRun s sched) := by
  induction sched with
  | nil => exact fun h => h
  | cons r l ih => exact fun h => ih (h.step hp r)

theorem FInv.start (acts : Fin (m + 1) → List (FileAct β)) (file0 : List β) :
    FInv acts ⟨file0, fun _ => [], acts⟩ where
  split _ := rfl
  sync h := by obtain ⟨r, h⟩ := h; simp at h
  file h := absurd rfl (h 0)

/-- once a record has been written nothing is lost -/
theorem FInv.kept {acts : Fin (m + 1) → List (FileAct β)} (hp : ∀ r : Fin (m + 1), Prog (r = 0) (acts r))
    {s : FileState (m + 1) β} (h : FInv acts s) (hw : appended (s.done 0) ≠ []) :
    s.file = appended (s.done 0) := by
  refine h.file fun r e => ?_
  have h3 : 3 ≤ (s.done 0).length := by
    by_contra hlt
    exact hw (((hp 0).at (h.split 0)).appended_nil (by omega))
  have := h.sync ⟨0, h3⟩ r
  simp [e] at this

end

section
variable {K R : ℕ} {own : Fin K → Fin R} {n b : Fin K → ℕ} {r : Fin R} {ω : ℕ → Reply own n b r}

theorem syncActs_cases {β : Type} (log : List (Req own n b r × Reply own n b r)) :
    (syncActs log : List (FileAct β)) = [] ∨
      ∃ rest : List (FileAct β), syncActs log = .enter :: .leave :: rest ∧ .remove ∉ rest ∧
        appended rest = [] := by
  have clean : ∀ l : List (Req own n b r × Reply own n b r),
      .remove ∉ (syncActs l : List (FileAct β)) ∧ appended (syncActs l : List (FileAct β)) = [] := by
    intro l
    induction l with
    | nil => simp [syncActs, appended]
    | cons x l ih =>
      have e : (syncActs (x :: l) : List (FileAct β))
          = (if x.1.isSync then [.enter, .leave] else []) ++ syncActs l := List.flatMap_cons
      rw [e]
      rw [appended_append, ih.2]
      split <;> simp [ih.1, appended]
  induction log with
  | nil => exact .inl rfl
  | cons x l ih =>
    have e : (syncActs (x :: l) : List (FileAct β))
        = (if x.1.isSync then [.enter, .leave] else []) ++ syncActs l := List.flatMap_cons
    rw [e]
    by_cases hx : x.1.isSync = true
    · rw [if_pos hx]
      exact .inr ⟨syncActs l, rfl, clean l⟩
    · rw [if_neg hx]
      exact ih

theorem syncActs_ne_nil {β : Type} {log : List (Req own n b r × Reply own n b r)}
    {x : Req own n b r × Reply own n b r} (hx : x ∈ log) (h : x.1.isSync = true) :
    (syncActs log : List (FileAct β)) ≠ [] := by
  intro e
  rw [syncActs, List.flatMap_eq_nil_iff] at e
  have := e x hx
  simp [h] at this

/-- after a successful call the result is that of the continuation -/
theorem SM.bind_ok {σ β γ : Type} {m : SM σ β} {f : β → SM σ γ} {s s' : σ} {y : γ}
    (h : (m >>= f) s = (.ok y, s')) : ∃ x s1, m s = (.ok x, s1) ∧ f x s1 = (.ok y, s') := by
  change SM.bind m f s = _ at h
  rw [SM.bind] at h
  rcases hm : m s with ⟨(x | e | _ | _), s1⟩ <;> rw [hm] at h
  · exact ⟨x, s1, rfl, h⟩
  all_goals simp at h

/-- a setup that succeeds has gone through a gather -/
theorem setupR_gather {c : LCfg own n b r} {s1 s2 : RState own n b r} {pt : RPoint own n b r}
    (h : setupR ω c s1 = (.ok pt, s2)) : ∃ x ∈ s2.log.drop s1.log.length, x.1.isSync = true := by
  obtain ⟨u, t1, h1, h⟩ := SM.bind_ok h
  obtain ⟨v, t2, h2, h⟩ := SM.bind_ok h
  have g1 : s1.log <+: t1.log := by simpa [h1] using (Grows.hostR (ω := ω) Req.compute) s1
  obtain ⟨rfl, rfl⟩ : v = t1 ∧ t2 = t1 := by
    change (Res.ok t1, t1) = (Res.ok v, t2) at h2
    simp only [Prod.mk.injEq, Res.ok.injEq] at h2
    exact ⟨h2.1.symm, h2.2.symm⟩
  have st : Starts ω (.gather t2.view.ek)
      (occR ω c t2.view.ek >>= fun q => do
        let s ← SM.get
        let X0 := s.view.C
        evaluateR ω c X0 q.2 t2.view.ek q.1
        let s ← SM.get
        pure ({ X := s.view.C, ek := t2.view.ek, ul := c.junk, eta := fun k => makeDiag (t2.view.ek k),
                fn := q.2, hx := s.view.hphi, mu := q.1 } : RPoint own n b r)) := by
    refine (Starts.occR c _).bind fun q => ?_
    refine Grows.bind (fun x => List.prefix_refl _) fun x => ?_
    refine (Grows.evaluateR c _ _ _ _).bind fun _ => ?_
    exact Grows.bind (fun x => List.prefix_refl _) fun _ => Grows.pure _
  have hs := st t2
  have h' : (occR ω c t2.view.ek >>= fun q => do
        let s ← SM.get
        let X0 := s.view.C
        evaluateR ω c X0 q.2 t2.view.ek q.1
        let s ← SM.get
        pure ({ X := s.view.C, ek := t2.view.ek, ul := c.junk, eta := fun k => makeDiag (t2.view.ek k),
                fn := q.2, hx := s.view.hphi, mu := q.1 } : RPoint own n b r)) t2 = (.ok pt, s2) := h
  rw [h'] at hs
  obtain ⟨l, hl⟩ := hs
  obtain ⟨l1, hl1⟩ := g1
  refine ⟨(.gather t2.view.ek, ω t2.log.length), ?_, rfl⟩
  simp only at hl
  rw [← hl, ← hl1]
  simp

end
end Nlcg
