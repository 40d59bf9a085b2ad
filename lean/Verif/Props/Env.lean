import Verif.Model.Env
import Mathlib.Tactic.Common

/-!
# The cached environment switch (`C49`)
-/

namespace Nlcg

/-- what the variable `NLCGLIB_DISABLE_NEWTON_EFERMI` means: set, and not to `0` -/
def Spec.Disabled (e : Option String) : Prop := ∃ v, e = some v ∧ v ≠ "0"

theorem envDecision_eq_one {e : Option String} : envDecision e = 1 ↔ Spec.Disabled e := by
  cases e with
  | none => simp [envDecision, Spec.Disabled]
  | some s => by_cases h : s = "0" <;> simp [envDecision, Spec.Disabled, h]

theorem envDecision_ne (e : Option String) : envDecision e ≠ -1 := by
  cases e with
  | none => simp [envDecision]
  | some s => by_cases h : s = "0" <;> simp [envDecision, h]

/-- invariant while the environment is `e` -/
structure EnvInv (e : Option String) (s : EnvState) : Prop where
  env : s.env = e
  first : s.hist[0]? = some (-1)
  later : ∀ k v, s.hist[k + 1]? = some v → v = envDecision e
  storing : ∀ t v, (s.thread t).pc = .storing v → v = envDecision e
  final : ∀ t, (s.thread t).pc = .final → 0 < (s.thread t).seen
  answers : ∀ t, ∀ a ∈ (s.thread t).answers, a = decide (envDecision e = 1)

theorem EnvInv.init (e : Option String) : EnvInv e (envInit e) := by
  constructor <;> simp [envInit]

theorem EnvInv.hist_pos {e : Option String} {s : EnvState} (h : EnvInv e s) : 0 < s.hist.length := by
  have := h.first
  by_contra hc
  simp [List.getElem?_eq_none (Nat.le_of_not_lt hc)] at this

/-- changing one thread -/
theorem EnvInv.setThread {e : Option String} {s : EnvState} (h : EnvInv e s) {t : ℕ} {th : EnvThread}
    (h1 : ∀ v, th.pc = .storing v → v = envDecision e) (h2 : th.pc = .final → 0 < th.seen)
    (h3 : ∀ a ∈ th.answers, a = decide (envDecision e = 1)) : EnvInv e (s.setThread t th) := by
  refine ⟨h.env, h.first, h.later, fun t' v => ?_, fun t' => ?_, fun t' a => ?_⟩ <;>
    by_cases ht : t' = t <;> simp only [EnvState.setThread, ht, if_true, if_false]
  · exact h1 v
  · exact h.storing t' v
  · exact h2
  · exact h.final t'
  · exact h3 a
  · exact h.answers t' a

/-- one more store -/
theorem EnvInv.push {e : Option String} {s : EnvState} (h : EnvInv e s) :
    EnvInv e { s with hist := s.hist ++ [envDecision e] } := by
  refine ⟨h.env, ?_, fun k v hv => ?_, h.storing, h.final, h.answers⟩
  · simp only
    rw [List.getElem?_append_left h.hist_pos, h.first]
  · simp only [List.getElem?_append] at hv
    split at hv
    · exact h.later k v hv
    · simp only [List.getElem?_singleton] at hv
      split at hv
      · exact (Option.some.inj hv).symm
      · cases hv

theorem EnvInv.step {e : Option String} {s s' : EnvState} {ev : EnvEvent} (h : EnvInv e s)
    (hev : ∀ e', ev ≠ .setenv e') (hs : envStep s ev = some s') : EnvInv e s' := by
  cases ev with
  | setenv e' => exact absurd rfl (hev e')
  | call t =>
    rw [envStep] at hs
    split at hs
    · cases hs
      exact h.setThread (by simp) (by simp) (h.answers t)
    · cases hs
  | step t k =>
    rw [envStep] at hs
    split at hs
    · cases hs
    · split at hs
      · split at hs
        · cases hs
        · rename_i v hv
          cases hs
          refine h.setThread ?_ ?_ (h.answers t)
          · intro w
            by_cases hw : v = -1 <;> simp [hw]
          · by_cases hw : v = -1 <;> simp only [hw, if_true, if_false]
            · simp
            · intro _
              rcases Nat.eq_zero_or_pos k with hk | hk
              · rw [hk, h.first] at hv
                exact absurd (Option.some.inj hv).symm hw
              · exact hk
      · cases hs
    · cases hs
      refine h.setThread ?_ (by simp) (h.answers t)
      intro v hv
      simp only [EnvPc.storing.injEq] at hv
      rw [← hv, h.env]
    · rename_i v hpc
      cases hs
      rw [h.storing t v hpc]
      exact h.push.setThread (by simp) (fun _ => h.hist_pos) (h.answers t)
    · rename_i hpc
      split at hs
      · rename_i hk
        split at hs
        · cases hs
        · rename_i v hv
          cases hs
          refine h.setThread (by simp) (by simp) ?_
          intro a ha
          rcases List.mem_append.1 ha with hb | hb
          · exact h.answers t a hb
          · obtain ⟨k, rfl⟩ : ∃ k', k = k' + 1 :=
              ⟨k - 1, by have := h.final t hpc; omega⟩
            rw [← h.later k v hv]
            simpa using hb
      · cases hs

theorem EnvInv.run {e : Option String} : ∀ {evs : List EnvEvent} {s s' : EnvState}, EnvInv e s →
    (∀ e', EnvEvent.setenv e' ∉ evs) → envRun s evs = some s' → EnvInv e s'
  | [], s, s', h, _, hs => by cases hs; exact h
  | ev :: evs, s, s', h, hev, hs => by
    rw [envRun] at hs
    split at hs
    · cases hs
    · rename_i s1 h1
      exact EnvInv.run (h.step (fun e' he => hev e' (by simp [he])) h1)
        (fun e' he => hev e' (by simp [he])) hs

/-- **C49**, first part: as long as the environment is not changed, every query of every thread, in every
interleaving and with every outdated value a relaxed load may return, answers whether the variable is set
to something other than `0`. -/
theorem C49_consistent {e : Option String} {evs : List EnvEvent} {s : EnvState}
    (hev : ∀ e', EnvEvent.setenv e' ∉ evs) (hs : envRun (envInit e) evs = some s) (t : ℕ) :
    ∀ a ∈ (s.thread t).answers, (a = true ↔ Spec.Disabled e) := by
  intro a ha
  rw [((EnvInv.init e).run hev hs).answers t a ha, decide_eq_true_iff, envDecision_eq_one]

/-- two threads that query at the same time: both find the cache empty and both store; thread 0 asks twice -/
example : (envRun (envInit (some "1"))
    [.call 0, .call 1, .step 0 0, .step 1 0, .step 1 0, .step 1 0, .step 1 1, .step 0 0, .step 0 0, .step 0 2,
      .call 0, .step 0 2, .step 0 2]).map (fun s => ((s.thread 0).answers, (s.thread 1).answers)) =
    some ([true, true], [true]) := by decide +kernel

/-! ## After the first answer -/

/-- the thread that is the only one to query, before and after its store -/
inductive Alone (t : ℕ) (s : EnvState) : Prop
  | before (hist : s.hist = [-1]) (answers : (s.thread t).answers = []) (seen : (s.thread t).seen = 0)
      (pc : (s.thread t).pc = .idle ∨ (s.thread t).pc = .check ∨ (s.thread t).pc = .getenv ∨
        ∃ v, v ≠ -1 ∧ (s.thread t).pc = .storing v)
  | after (v : ℤ) (hv : v ≠ -1) (hist : s.hist = [-1, v])
      (answers : ∀ a ∈ (s.thread t).answers, a = decide (v = 1)) (seen : (s.thread t).seen = 1)
      (pc : (s.thread t).pc = .idle ∨ (s.thread t).pc = .check ∨ (s.thread t).pc = .final)

theorem lookup_two {v w : ℤ} {k : ℕ} (hk : 1 ≤ k) (h : ([-1, v] : List ℤ)[k]? = some w) : k = 1 ∧ w = v := by
  match k, hk with
  | 1, _ => exact ⟨rfl, by simpa using h.symm⟩
  | k + 2, _ => simp at h

theorem lookup_one {w : ℤ} {k : ℕ} (h : ([-1] : List ℤ)[k]? = some w) : k = 0 ∧ w = -1 := by
  match k with
  | 0 => exact ⟨rfl, by simpa using h.symm⟩
  | k + 1 => simp at h

theorem Alone.step {t : ℕ} {s s' : EnvState} {ev : EnvEvent} (h : Alone t s)
    (hi : ∀ t', t' ≠ t → (s.thread t').pc = .idle)
    (hev : ∀ t', ev = .call t' → t' = t) (hs : envStep s ev = some s') :
    Alone t s' ∧ ∀ t', t' ≠ t → (s'.thread t').pc = .idle := by
  cases ev with
  | setenv e' =>
    cases hs
    refine ⟨?_, hi⟩
    cases h with
    | before h1 h2 h3 h4 => exact .before h1 h2 h3 h4
    | after v h0 h1 h2 h3 h4 => exact .after v h0 h1 h2 h3 h4
  | call t' =>
    obtain rfl := hev t' rfl
    rw [envStep] at hs
    split at hs
    · cases hs
      refine ⟨?_, fun u hu => by simpa [EnvState.setThread, hu] using hi u hu⟩
      cases h with
      | before h1 h2 h3 h4 =>
        exact .before h1 (by simpa [EnvState.setThread] using h2) (by simpa [EnvState.setThread] using h3)
          (by simp [EnvState.setThread])
      | after v h0 h1 h2 h3 h4 =>
        exact .after v h0 h1 (by simpa [EnvState.setThread] using h2)
          (by simpa [EnvState.setThread] using h3) (by simp [EnvState.setThread])
    · cases hs
  | step t' k =>
    have ht : t' = t := by
      by_contra hne
      simp [envStep, hi t' hne] at hs
    subst ht
    have hothers : ∀ (s₀ : EnvState) (th : EnvThread), s₀.thread = s.thread →
        ∀ u, u ≠ t' → ((s₀.setThread t' th).thread u).pc = .idle := by
      intro s₀ th h₀ u hu
      simpa [EnvState.setThread, hu, h₀] using hi u hu
    rw [envStep] at hs
    cases h with
    | before h1 h2 h3 h4 =>
      rcases h4 with h4 | h4 | h4 | ⟨v, hv, h4⟩ <;> rw [h4] at hs <;> dsimp only at hs
      · cases hs
      · split at hs
        · split at hs
          · cases hs
          · rename_i w hw
            rw [h1] at hw
            obtain ⟨rfl, rfl⟩ := lookup_one hw
            cases hs
            exact ⟨.before h1 (by simpa [EnvState.setThread] using h2) (by simp [EnvState.setThread])
              (by simp [EnvState.setThread]), hothers s _ rfl⟩
        · cases hs
      · cases hs
        exact ⟨.before h1 (by simpa [EnvState.setThread] using h2) (by simpa [EnvState.setThread] using h3)
          (by simp [EnvState.setThread, envDecision_ne]), hothers s _ rfl⟩
      · cases hs
        exact ⟨.after v hv (by simp [EnvState.setThread, h1]) (by simp [EnvState.setThread, h2])
          (by simp [EnvState.setThread, h1]) (by simp [EnvState.setThread]), hothers _ _ rfl⟩
    | after v h0 h1 h2 h3 h4 =>
      rcases h4 with h4 | h4 | h4 <;> rw [h4] at hs <;> dsimp only at hs
      · cases hs
      · split at hs
        · rename_i hk
          split at hs
          · cases hs
          · rename_i w hw
            rw [h1] at hw
            obtain ⟨rfl, rfl⟩ := lookup_two (by omega) hw
            cases hs
            exact ⟨.after w h0 h1 (by simpa [EnvState.setThread] using h2) (by simp [EnvState.setThread])
              (by simp [EnvState.setThread, h0]), hothers s _ rfl⟩
        · cases hs
      · split at hs
        · rename_i hk
          split at hs
          · cases hs
          · rename_i w hw
            rw [h1] at hw
            obtain ⟨rfl, rfl⟩ := lookup_two (by omega) hw
            cases hs
            refine ⟨.after w h0 h1 ?_ (by simp [EnvState.setThread]) (by simp [EnvState.setThread]),
              hothers s _ rfl⟩
            intro a ha
            simp only [EnvState.setThread, if_true, List.mem_append, List.mem_singleton] at ha
            rcases ha with ha | ha
            · exact h2 a ha
            · exact ha
        · cases hs

theorem Alone.run {t : ℕ} : ∀ {evs : List EnvEvent} {s s' : EnvState}, Alone t s →
    (∀ t', t' ≠ t → (s.thread t').pc = .idle) → (∀ t', EnvEvent.call t' ∈ evs → t' = t) →
    envRun s evs = some s' → Alone t s'
  | [], s, s', h, _, _, hs => by cases hs; exact h
  | ev :: evs, s, s', h, hi, hev, hs => by
    rw [envRun] at hs
    split at hs
    · cases hs
    · rename_i s1 h1
      have := h.step hi (fun t' he => hev t' (by simp [he])) h1
      exact Alone.run this.1 this.2 (fun t' he => hev t' (by simp [he])) hs

/-- **C49**, second part, when only one thread queries: all its answers are equal, whatever happens to the
environment before, between or during the queries. Missing: several threads, see `C49_not_fixed`. -/
theorem C49_fixed_partial {e : Option String} {evs : List EnvEvent} {s : EnvState} {t : ℕ}
    (hev : ∀ t', EnvEvent.call t' ∈ evs → t' = t) (hs : envRun (envInit e) evs = some s) :
    ∀ a ∈ (s.thread t).answers, ∀ b ∈ (s.thread t).answers, a = b := by
  have h : Alone t s := Alone.run (.before rfl rfl rfl (by simp [envInit])) (by simp [envInit]) hev hs
  intro a ha b hb
  cases h with
  | before _ h2 => simp [h2] at ha
  | after v _ _ h2 => rw [h2 a ha, h2 b hb]

/-- the environment changes after the first answer; the second query does not notice -/
example : (envRun (envInit none) [.call 0, .step 0 0, .step 0 0, .step 0 0, .step 0 1, .setenv (some "1"),
    .call 0, .step 0 1, .step 0 1]).map (fun s => (s.thread 0).answers) = some [false, false] := by
  decide +kernel

/-- **C49** is false of the code: thread 1 finds the cache empty and is interrupted; thread 0 queries and
is told `false`; the environment changes; thread 1 goes on and overwrites the cache; thread 0 queries again
and is told `true`. -/
theorem C49_not_fixed : ∃ (evs : List EnvEvent) (s : EnvState),
    envRun (envInit none) evs = some s ∧ (s.thread 0).answers = [false, true] := by
  refine ⟨[.call 1, .step 1 0, .call 0, .step 0 0, .step 0 0, .step 0 0, .step 0 1, .setenv (some "1"),
    .step 1 0, .step 1 0, .call 0, .step 0 2, .step 0 2], _, rfl, ?_⟩
  decide +kernel

end Nlcg
