import Verif.Spec.HostError
import Verif.Proofs.RunRule

/-! A failure of the backend that is not one of the solver's own exceptions ends the run. -/

namespace Nlcg
open Arith Spec
variable {α σ ρ δ : Type} [Arith α]

/-- still well, or failed with the foreign exception `e` -/
def Fate (C B : σ → Prop) (e : Exc) {β : Type} (o : Res β) (s : σ) : Prop := C s ∨ (o = .throw e ∧ B s)

theorem Fate.fail {C B : σ → Prop} {e : Exc} {β γ : Type} {o : Res β} {s : σ} (h : Fate C B e o s) :
    Fate C B e (o.fail : Res γ) s := by
  rcases h with h | ⟨rfl, h⟩
  · exact .inl h
  · exact .inr ⟨rfl, h⟩

theorem Fate.ok {C B : σ → Prop} {e : Exc} {β : Type} {r : β} {s : σ} (h : Fate C B e (.ok r) s) : C s := by
  rcases h with h | ⟨h, -⟩
  · exact h
  · cases h

theorem Fate.other {C B : σ → Prop} {e e' : Exc} {β : Type} {s : σ} (h : Fate C B e (.throw e' : Res β) s)
    (he : e' ≠ e) : C s := by
  rcases h with h | ⟨h, -⟩
  · exact h
  · cases h; exact absurd rfl he

section search
variable {env : LSEnv α σ ρ} {C B : σ → Prop} {e : Exc}
  (h : ∀ t s, C s → Fate C B e (env.G t s).1 (env.G t s).2)
include h

theorem fate_evalG (t : α) (st : LSState α σ) (hs : C st.s) :
    FM.wp (evalG env t) (fun o st' => Fate C B e o st'.s) st := by
  intro o st' he
  obtain ⟨h1, -, -⟩ := evalG_ok he
  have := h t st.s hs
  rw [h1] at this
  exact this

theorem fate_btLoop (tau F0 : α) : ∀ (n : Nat) (t : α) (st : LSState α σ), C st.s →
    FM.wp (btLoop env tau F0 n t) (fun o st' => Fate C B e o st'.s) st := by
  intro n
  induction n with
  | zero =>
    intro t st hs
    rw [btLoop]
    split
    · intro o st' hh; simp at hh
    · rw [FM.wp_pure]; exact .inl hs
  | succ n ih =>
    intro t st hs
    rw [btLoop]
    split
    · rw [FM.wp_bind]
      refine FM.wp_mono (fate_evalG h t st hs) ?_
      rintro o st1 hp
      cases o with
      | ok r =>
        rw [FM.after_ok, FM.wp_bind]
        intro o2 st2 hr
        rw [readF_apply] at hr
        simp only [Option.some.injEq, Prod.mk.injEq] at hr
        obtain ⟨rfl, rfl⟩ := hr
        rw [FM.after_ok]
        split
        · rw [setRestart, FM.wp_bind, FM.wp_modify, FM.after_ok, FM.wp_pure]
          exact .inl hp.ok
        · exact ih _ _ hp.ok
      | _ => exact hp.fail
    · rw [FM.wp_pure]; exact .inl hs

theorem fate_btSearch (p : LSParams α) (fuel : Nat) (F0 : α) (st : LSState α σ) (hs : C st.s) :
    FM.wp (btSearch env p fuel F0) (fun o st' => Fate C B e o st'.s) st := by
  rw [btSearch]
  split
  · rw [FM.wp_throw]; exact .inl hs
  · rw [FM.wp_bind]
    refine FM.wp_mono (fate_btLoop h p.tau F0 fuel p.tTrial st hs) ?_
    rintro o st1 hp
    cases o with
    | ok q =>
      rw [FM.after_ok]
      cases q with
      | some r =>
        simp only
        rw [FM.wp_pure]
        exact .inl hp.ok
      | none =>
        simp only
        rw [FM.wp_bind, FM.wp_get, FM.after_ok]
        split
        · rw [FM.wp_throw]; exact .inl hp.ok
        · rw [setRestart, FM.wp_bind, FM.wp_modify, FM.after_ok]
          exact fate_evalG h _ _ hp.ok
    | _ => exact hp.fail

theorem fate_qlineLoop (F0 slope : α) : ∀ (n : Nat) (t : α) (st : LSState α σ), C st.s →
    FM.wp (qlineLoop env F0 slope n t) (fun o st' => Fate C B e o st'.s) st := by
  intro n
  induction n with
  | zero => intro t st hs o st' hh; simp [qlineLoop] at hh
  | succ n ih =>
    intro t st hs
    rw [qlineLoop, FM.wp_bind]
    refine FM.wp_mono (fate_evalG h t st hs) ?_
    rintro o st1 hp
    cases o with
    | ok r =>
      rw [FM.after_ok, FM.wp_bind]
      intro o2 st2 hr
      rw [readF_apply] at hr
      simp only [Option.some.injEq, Prod.mk.injEq] at hr
      obtain ⟨rfl, rfl⟩ := hr
      rw [FM.after_ok]
      simp only
      split
      · exact ih _ _ hp.ok
      · rw [FM.wp_pure]; exact .inl hp.ok
    | _ => exact hp.fail

theorem fate_qline (p : LSParams α) (fuel : Nat) (slope : α) (st : LSState α σ) (hs : C st.s) :
    FM.wp (qline env p fuel slope) (fun o st' => Fate C B e o st'.s) st := by
  rw [qline, FM.wp_bind]
  intro o1 st1 hr
  rw [readF_apply] at hr
  simp only [Option.some.injEq, Prod.mk.injEq] at hr
  obtain ⟨rfl, rfl⟩ := hr
  rw [FM.after_ok, FM.wp_bind]
  refine FM.wp_mono (fate_qlineLoop h _ slope fuel p.tTrial st hs) ?_
  intro o st1 hp
  cases o with
  | ok tm =>
    rw [FM.after_ok, FM.wp_bind]
    refine FM.wp_mono (fate_evalG h tm st1 hp.ok) ?_
    rintro o st2 hp
    cases o with
    | ok r =>
      rw [FM.after_ok, FM.wp_bind]
      intro o3 st3 hr
      rw [readF_apply] at hr
      simp only [Option.some.injEq, Prod.mk.injEq] at hr
      obtain ⟨rfl, rfl⟩ := hr
      rw [FM.after_ok]
      split
      · rw [FM.wp_throw]; exact .inl hp.ok
      · rw [setRestart, FM.wp_bind, FM.wp_modify, FM.after_ok, FM.wp_pure]
        exact .inl hp.ok
    | _ => exact hp.fail
  | _ => exact hp.fail

/-- The line search does not catch a foreign exception. -/
theorem fate_lineSearch (he : e ≠ .stepError) (p : LSParams α) (fuel : Nat) (slope : α) (st : LSState α σ)
    (hs : C st.s) : FM.wp (lineSearch env p fuel slope) (fun o st' => Fate C B e o st'.s) st := by
  rw [lineSearch]
  split
  · rw [FM.wp_throw]; exact .inl hs
  · rw [FM.wp_bind]
    intro o1 st1 hr
    rw [readF_apply] at hr
    simp only [Option.some.injEq, Prod.mk.injEq] at hr
    obtain ⟨rfl, rfl⟩ := hr
    rw [FM.after_ok, FM.wp_bind, FM.wp_attempt]
    refine FM.wp_mono (fate_qline h p fuel slope st hs) ?_
    rintro o st1 hp
    cases o with
    | ok r =>
      simp only [FM.after_ok]
      rw [FM.wp_pure]
      exact hp
    | throw e' =>
      simp only [FM.after_ok]
      cases e'
      case stepError => exact fate_btSearch h p fuel _ st1 (hp.other he.symm)
      all_goals
        simp only
        rw [FM.wp_throw]; exact hp
    | _ => exact hp

end search

/-- every operation started well ends well or fails with `e` -/
structure FateRule (ops : Ops α σ ρ δ) (C B : σ → Prop) (e : Exc) : Prop where
  construct : ∀ s, C s → Fate C B e (ops.construct s).1 (ops.construct s).2
  setup : ∀ s, C s → Fate C B e (ops.setup s).1 (ops.setup s).2
  restarted : ∀ p s, C s → Fate C B e (ops.restarted p s).1 (ops.restarted p s).2
  conjugated : ∀ fr p d s, C s → Fate C B e (ops.conjugated fr p d s).1 (ops.conjugated fr p d s).2
  geo : ∀ p d t s, C s → Fate C B e (ops.geo p d t s).1 (ops.geo p d t s).2
  refresh : ∀ p s, C s → Fate C B e (ops.refresh p s).1 (ops.refresh p s).2
  gather : ∀ p s, C s → Fate C B e (ops.gather p s).1 (ops.gather p s).2
  print : ∀ s, C s → Fate C B e (ops.hostPrint s).1 (ops.hostPrint s).2
  step : e ≠ .stepError
  slope : e ≠ .slopeError
  descent : e ≠ .descentError

theorem Fate.of_eq {C B : σ → Prop} {e : Exc} {β : Type} {q : Res β × σ} {o : Res β} {s : σ}
    (h : Fate C B e q.1 q.2) (he : q = (o, s)) : Fate C B e o s := by subst he; exact h

variable {ops : Ops α σ ρ δ} {C B : σ → Prop} {e : Exc}

omit [Arith α] in
theorem FateRule.json (hr : FateRule ops C B e) {rank i : Nat} {slope : α} {pt : ρ}
    {w : NState α σ} {o : Res Unit} {s' : σ} {file' : List (JsonRec α)}
    (h : JsonRun ops rank i slope pt w o s' file') (hC : C w.s) : Fate C B e o s' := by
  obtain ⟨h1, -⟩ := h
  split at h1
  · exact (hr.gather pt w.s hC).of_eq h1.symm
  · cases h1; exact .inl hC

theorem FateRule.dir (hr : FateRule ops C B e) {prm : NlcgParams α} {i : Nat} {v : Vars α ρ δ}
    {r : ρ} {st : LSState α σ} {o : Res (Vars α ρ δ)} {dirs : List (Ev α)} {s' : σ} {force' : Bool}
    (h : DirRun ops prm i v r st o dirs s' force') (hC : C st.s) : Fate C B e o s' := by
  cases h with
  | refresh o s4 h1 h2 => exact ((hr.refresh r st.s hC).of_eq h1).fail
  | ub pt s4 h1 h2 => exact .inl ((hr.refresh r st.s hC).of_eq h1).ok
  | steepestFail pt s4 o s5 h1 h2 h3 h4 h5 =>
    exact ((hr.restarted pt s4 ((hr.refresh r st.s hC).of_eq h1).ok).of_eq h4).fail
  | steepest pt s4 sl dir s5 h1 h2 h3 h4 =>
    exact .inl ((hr.restarted pt s4 ((hr.refresh r st.s hC).of_eq h1).ok).of_eq h4).ok
  | conjugateFail pt s4 o s5 h1 h2 h3 h4 h5 h6 =>
    exact ((hr.conjugated _ pt _ s4 ((hr.refresh r st.s hC).of_eq h1).ok).of_eq h5).fail
  | conjugate pt s4 fr sl dir s5 h1 h2 h3 h4 h5 h6 =>
    exact .inl ((hr.conjugated _ pt _ s4 ((hr.refresh r st.s hC).of_eq h1).ok).of_eq h5).ok
  | rejectedFail pt s4 fr cc dir s5 o s6 h1 h2 h3 h4 h5 h6 h7 h8 =>
    have c := ((hr.conjugated _ pt _ s4 ((hr.refresh r st.s hC).of_eq h1).ok).of_eq h5).ok
    exact ((hr.restarted pt s5 c).of_eq h7).fail
  | rejected pt s4 fr cc dir s5 sl dir6 s6 h1 h2 h3 h4 h5 h6 h7 =>
    have c := ((hr.conjugated _ pt _ s4 ((hr.refresh r st.s hC).of_eq h1).ok).of_eq h5).ok
    exact .inl ((hr.restarted pt s5 c).of_eq h7).ok

theorem FateRule.body (hr : FateRule ops C B e) {prm : NlcgParams α} {fuel rank i : Nat}
    {v : Vars α ρ δ} {w : NState α σ} {o : Res (Vars α ρ δ)} {w' : NState α σ}
    (h : BodyRun ops prm fuel rank i v w o w') (hC : C w.s) : Fate C B e o w'.s := by
  cases h with
  | json o s1 file' h1 h2 => exact (hr.json h1 hC).fail
  | hostPrint s1 s2 file' o h1 h2 h3 => exact ((hr.print s1 (hr.json h1 hC).ok).of_eq h2).fail
  | search s1 s2 file' o st tr h1 h2 h3 h4 h5 h6 =>
    have c := ((hr.print s1 (hr.json h1 hC).ok).of_eq h2).ok
    exact (fate_lineSearch (fun t s hs => hr.geo v.pt v.dir t s hs) hr.step _ _ _ _ c _ _ h3).fail
  | searched s1 s2 file' r st _ dirs s' force' h1 h2 h3 h4 =>
    have c := ((hr.print s1 (hr.json h1 hC).ok).of_eq h2).ok
    exact hr.dir h4 (fate_lineSearch (fun t s hs => hr.geo v.pt v.dir t s hs) hr.step _ _ _ _ c _ _ h3).ok

theorem FateRule.loop (hr : FateRule ops C B e) {prm : NlcgParams α} {fuel rank : Nat}
    {n i : Nat} {v : Vars α ρ δ} {w : NState α σ} {o : Res (Info α)} {w' : NState α σ}
    (h : LoopRun ops prm fuel rank n i v w o w') : C w.s → Fate C B e o w'.s := by
  induction h with
  | limit i v w => exact .inl
  | success n i v w s1 s2 file' h1 h2 h3 => exact fun hC => .inl ((hr.print s1 (hr.json h2 hC).ok).of_eq h3).ok
  | successJson n i v w o s1 file' h1 h2 h3 => exact fun hC => (hr.json h2 hC).fail
  | successPrint n i v w s1 file' o s2 h1 h2 h3 h4 =>
    exact fun hC => ((hr.print s1 (hr.json h2 hC).ok).of_eq h3).fail
  | step n i v w v' w1 o w' h1 h2 h3 ih => exact fun hC => ih (hr.body h2 hC).ok
  | caught n i v w e' w1 h1 h2 h3 =>
    intro hC
    refine .inl ((hr.body h2 hC).other ?_)
    rcases h3 with rfl | rfl
    · exact hr.descent.symm
    · exact hr.slope.symm
  | uncaught n i v w o w1 h1 h2 h3 h4 => exact fun hC => (hr.body h2 hC).fail

/-- a run started well ends well, or with the foreign exception -/
theorem FateRule.run (hr : FateRule ops C B e) {prm : NlcgParams α} {fuel rank : Nat}
    {w : NState α σ} {o : Res (Info α)} {w' : NState α σ}
    (h : nlcg ops prm fuel rank w = some (o, w')) (h0 : C w.s) : Fate C B e o w'.s := by
  cases nlcg_run ops prm fuel rank w o w' h with
  | construct o s1 h1 h2 => exact ((hr.construct w.s h0).of_eq h1).fail
  | setup s1 o s2 h1 h2 h3 => exact ((hr.setup s1 ((hr.construct w.s h0).of_eq h1).ok).of_eq h2).fail
  | restarted s1 pt s2 o s3 h1 h2 h3 h4 =>
    exact ((hr.restarted pt s2 ((hr.setup s1 ((hr.construct w.s h0).of_eq h1).ok).of_eq h2).ok).of_eq h3).fail
  | loop s1 pt s2 slope dir s3 o w' h1 h2 h3 h4 =>
    exact hr.loop h4 ((hr.restarted pt s2 ((hr.setup s1 ((hr.construct w.s h0).of_eq h1).ok).of_eq h2).ok).of_eq h3).ok

/-! ## The solver -/

variable {K : ℕ} {n b : Fin K → ℕ} {η : Type} {host : Host η n b} {log : η → List Bool}

/-- no call threw so far -/
def Well (log : η → List Bool) (s : SState η n b) : Prop := NoneThrew (log s.h)

/-- the last call threw -/
def Broken (log : η → List Bool) (s : SState η n b) : Prop := LastThrew (log s.h)

theorem fate_bind {β γ : Type} {C B : σ → Prop} {e : Exc} {m : SM σ β} {f : β → SM σ γ} {s : σ}
    (h : Fate C B e (m s).1 (m s).2) (hf : ∀ r s', C s' → Fate C B e (f r s').1 (f r s').2) :
    Fate C B e ((m >>= f) s).1 ((m >>= f) s).2 := by
  rw [SM.bind_apply]
  rcases hm : m s with ⟨o, s'⟩
  rw [hm] at h
  cases o with
  | ok r => exact hf r s' h.ok
  | throw e' => exact h.fail
  | ub => exact h.fail
  | abort => exact h.fail

theorem fate_hostCall {β : Type} {c : HostCall n b} {f : η → Option β × η} (hf : Noted log f)
    {s : SState η n b} (h : Well log s) :
    Fate (Well log) (Broken log) .runtimeError (hostCall c f s).1 (hostCall c f s).2 := by
  have := hf s.h
  rw [hostCall]
  generalize f s.h = q at this ⊢
  rcases q with ⟨_ | r, h'⟩
  · exact .inr ⟨rfl, log s.h, h, this⟩
  · refine .inl ?_
    show NoneThrew (log h')
    rw [show log h' = log s.h ++ [true] from this]
    intro x hx
    rcases List.mem_append.1 hx with hx | hx
    · exact h x hx
    · simpa using hx

theorem fate_same {β : Type} {C B : σ → Prop} {e : Exc} {m : SM σ β} {s : σ} (hm : (m s).2 = s) (h : C s) :
    Fate C B e (m s).1 (m s).2 := .inl (by rw [hm]; exact h)

theorem fate_evaluate (hl : KeepsLog host log) (c : Cfg n b) (X : Orbitals n b) (fn en : Bands b) (mu : ℝ)
    {s : SState η n b} (h : Well log s) :
    Fate (Well log) (Broken log) .runtimeError (evaluate host c X fn en mu s).1 (evaluate host c X fn en mu s).2 := by
  rw [evaluate]
  refine fate_bind (fate_hostCall (hl.setC X) h) fun _ s1 h1 => ?_
  refine fate_bind (fate_hostCall (hl.setFn fn) h1) fun _ s2 h2 => ?_
  refine fate_bind (fate_hostCall hl.compute h2) fun _ s3 h3 => ?_
  refine fate_bind (fate_hostCall (hl.setMu mu) h3) fun _ s4 h4 => ?_
  exact fate_bind (fate_hostCall hl.energy h4) fun _ s5 h5 => .inl h5

theorem fate_rule (hl : KeepsLog host log) (c : Cfg n b) :
    FateRule (solverOps host c) (Well log) (Broken log) .runtimeError where
  construct := fun s h => fate_same rfl h
  setup := by
    intro s h
    show Fate _ _ _ (solverSetup host c s).1 (solverSetup host c s).2
    rw [solverSetup]
    refine fate_bind (fate_hostCall hl.compute h) fun _ s1 h1 => ?_
    refine fate_bind (m := SM.get) (.inl h1) fun a s2 h2 => ?_
    refine fate_bind (m := SM.lift _) (fate_same rfl h2) fun q s3 h3 => ?_
    refine fate_bind (m := SM.get) (.inl h3) fun a s4 h4 => ?_
    refine fate_bind (fate_evaluate hl c _ _ _ _ h4) fun _ s5 h5 => ?_
    exact fate_bind (m := SM.get) (.inl h5) fun _ s6 h6 => .inl h6
  restarted := fun p s h => fate_same rfl h
  conjugated := fun fr p d s h => fate_same rfl h
  geo := by
    intro p d t s h
    show Fate _ _ _ (solverGeo host c p d t s).1 (solverGeo host c p d t s).2
    rw [solverGeo]
    refine fate_bind (m := SM.lift _) (fate_same rfl h) fun g s1 h1 => ?_
    refine fate_bind (m := SM.lift _) (fate_same rfl h1) fun q s2 h2 => ?_
    exact fate_bind (fate_evaluate hl c _ _ _ _ h2) fun _ s3 h3 => .inl h3
  refresh := fun p s h => fate_same rfl h
  gather := fun p s h => fate_same rfl h
  print := fun s h => fate_hostCall hl.print h
  step := by simp
  slope := by simp
  descent := by simp

end Nlcg
