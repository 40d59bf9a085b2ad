import Verif.Proofs.DriverTrace

/-! An invariant rule for whole runs of the driver. -/

namespace Nlcg
open Arith
variable {α σ ρ δ : Type} [Arith α]

/-- a value, or one of the exceptions the solver uses internally -/
def Res.Soft {β : Type} : Res β → Prop
  | .ok _ | .throw .slopeError | .throw .stepError | .throw .descentError => True
  | _ => False

@[simp] theorem Res.soft_ok {β : Type} (r : β) : (Res.ok r).Soft := trivial

theorem Res.Soft.fail {β γ : Type} {o : Res β} (h : (o.fail : Res γ).Soft) : o.Soft := by
  cases o with
  | ok r => trivial
  | throw e => cases e <;> exact h
  | ub => exact h
  | abort => exact h

/-- Outcome `o`, final state `s`: `E` holds in any case, `I` unless a foreign failure occurred, and
`P r` if `r` was returned. -/
structure Post {β : Type} (I E : σ → Prop) (P : β → σ → Prop) (o : Res β) (s : σ) : Prop where
  any : E s
  soft : o.Soft → I s
  ok : ∀ r, o = .ok r → P r s

/-- the same for a pair -/
def Keeps {β : Type} (I E : σ → Prop) (P : β → σ → Prop) (q : Res β × σ) : Prop :=
  Post I E P q.1 q.2

theorem Post.fail {β γ : Type} {I E : σ → Prop} {P : β → σ → Prop} {P' : γ → σ → Prop} {o : Res β}
    {s : σ} (h : Post I E P o s) (ho : o.isOk = false) : Post I E P' o.fail s :=
  ⟨h.any, fun hs => h.soft hs.fail, fun r hr => absurd hr (by cases o <;> simp_all [Res.fail, Res.isOk])⟩

theorem wp_evalG {env : LSEnv α σ ρ} {I E : σ → Prop} {P : ρ → σ → Prop}
    (h : ∀ t s, I s → Keeps I E P (env.G t s)) (t : α) (st : LSState α σ) (hs : I st.s) :
    FM.wp (evalG env t) (fun o st' => Post I E P o st'.s) st := by
  intro o st' he
  obtain ⟨h1, -, -⟩ := evalG_ok he
  have := h t st.s hs
  rw [h1] at this
  exact this

section search
variable {env : LSEnv α σ ρ} {I E : σ → Prop} {P : ρ → σ → Prop} (hE : ∀ s, I s → E s)
  (h : ∀ t s, I s → Keeps I E P (env.G t s))
include hE h

theorem wp_btLoop (tau F0 : α) : ∀ (n : Nat) (t : α) (st : LSState α σ), I st.s →
    FM.wp (btLoop env tau F0 n t)
      (fun o st' => Post I E (fun q s => ∀ r, q = some r → P r s) o st'.s) st := by
  intro n
  induction n with
  | zero =>
    intro t st hs
    rw [btLoop]
    split
    · intro o st' hh; simp at hh
    · rw [FM.wp_pure]; exact ⟨hE _ hs, fun _ => hs, by rintro _ ⟨⟩ r hr; cases hr⟩
  | succ n ih =>
    intro t st hs
    rw [btLoop]
    split
    · rw [FM.wp_bind]
      refine FM.wp_mono (wp_evalG h t st hs) ?_
      rintro o st1 hp
      cases o with
      | ok r =>
        have h1 := hp.soft trivial
        rw [FM.after_ok, FM.wp_bind]
        intro o2 st2 hr
        rw [readF_apply] at hr
        simp only [Option.some.injEq, Prod.mk.injEq] at hr
        obtain ⟨rfl, rfl⟩ := hr
        rw [FM.after_ok]
        split
        · rw [setRestart, FM.wp_bind, FM.wp_modify, FM.after_ok, FM.wp_pure]
          exact ⟨hp.any, fun _ => h1, by rintro _ ⟨⟩ r' hr'; cases hr'; exact hp.ok r rfl⟩
        · exact ih _ _ h1
      | _ => exact hp.fail rfl
    · rw [FM.wp_pure]; exact ⟨hE _ hs, fun _ => hs, by rintro _ ⟨⟩ r hr; cases hr⟩

theorem wp_btSearch (p : LSParams α) (fuel : Nat) (F0 : α) (st : LSState α σ) (hs : I st.s) :
    FM.wp (btSearch env p fuel F0) (fun o st' => Post I E P o st'.s) st := by
  rw [btSearch]
  split
  · rw [FM.wp_throw]; exact ⟨hE _ hs, fun _ => hs, by simp⟩
  · rw [FM.wp_bind]
    refine FM.wp_mono (wp_btLoop hE h p.tau F0 fuel p.tTrial st hs) ?_
    rintro o st1 hp
    cases o with
    | ok q =>
      have h1 := hp.soft trivial
      rw [FM.after_ok]
      cases q with
      | some r =>
        simp only
        rw [FM.wp_pure]
        exact ⟨hp.any, fun _ => h1, fun r' hr' => by cases hr'; exact hp.ok _ rfl r rfl⟩
      | none =>
        simp only
        rw [FM.wp_bind, FM.wp_get, FM.after_ok]
        split
        · rw [FM.wp_throw]; exact ⟨hp.any, fun _ => h1, by simp⟩
        · rw [setRestart, FM.wp_bind, FM.wp_modify, FM.after_ok]
          exact wp_evalG h _ _ h1
    | _ => exact hp.fail rfl

omit hE in
theorem wp_qlineLoop (F0 slope : α) : ∀ (n : Nat) (t : α) (st : LSState α σ), I st.s →
    FM.wp (qlineLoop env F0 slope n t) (fun o st' => Post I E (fun _ _ => True) o st'.s) st := by
  intro n
  induction n with
  | zero => intro t st hs o st' hh; simp [qlineLoop] at hh
  | succ n ih =>
    intro t st hs
    rw [qlineLoop, FM.wp_bind]
    refine FM.wp_mono (wp_evalG h t st hs) ?_
    rintro o st1 hp
    cases o with
    | ok r =>
      have h1 := hp.soft trivial
      rw [FM.after_ok, FM.wp_bind]
      intro o2 st2 hr
      rw [readF_apply] at hr
      simp only [Option.some.injEq, Prod.mk.injEq] at hr
      obtain ⟨rfl, rfl⟩ := hr
      rw [FM.after_ok]
      simp only
      split
      · exact ih _ _ h1
      · rw [FM.wp_pure]; exact ⟨hp.any, fun _ => h1, fun _ _ => trivial⟩
    | _ => exact hp.fail rfl

theorem wp_qline (p : LSParams α) (fuel : Nat) (slope : α) (st : LSState α σ) (hs : I st.s) :
    FM.wp (qline env p fuel slope) (fun o st' => Post I E P o st'.s) st := by
  rw [qline, FM.wp_bind]
  intro o1 st1 hr
  rw [readF_apply] at hr
  simp only [Option.some.injEq, Prod.mk.injEq] at hr
  obtain ⟨rfl, rfl⟩ := hr
  rw [FM.after_ok, FM.wp_bind]
  refine FM.wp_mono (wp_qlineLoop h _ slope fuel p.tTrial st hs) ?_
  intro o st1 hp
  cases o with
  | ok tm =>
    rw [FM.after_ok, FM.wp_bind]
    refine FM.wp_mono (wp_evalG h tm st1 (hp.soft trivial)) ?_
    rintro o st2 hp
    cases o with
    | ok r =>
      have h2 := hp.soft trivial
      rw [FM.after_ok, FM.wp_bind]
      intro o3 st3 hr
      rw [readF_apply] at hr
      simp only [Option.some.injEq, Prod.mk.injEq] at hr
      obtain ⟨rfl, rfl⟩ := hr
      rw [FM.after_ok]
      split
      · rw [FM.wp_throw]; exact ⟨hp.any, fun _ => h2, by simp⟩
      · rw [setRestart, FM.wp_bind, FM.wp_modify, FM.after_ok, FM.wp_pure]
        exact ⟨hp.any, fun _ => h2, fun r' hr' => by cases hr'; exact hp.ok r rfl⟩
    | _ => exact hp.fail rfl
  | _ => exact hp.fail rfl

/-- The invariant holds after a line search, and what it returns is what its last evaluation
returned. -/
theorem wp_lineSearch (p : LSParams α) (fuel : Nat) (slope : α) (st : LSState α σ) (hs : I st.s) :
    FM.wp (lineSearch env p fuel slope) (fun o st' => Post I E P o st'.s) st := by
  rw [lineSearch]
  split
  · rw [FM.wp_throw]; exact ⟨hE _ hs, fun _ => hs, by simp⟩
  · rw [FM.wp_bind]
    intro o1 st1 hr
    rw [readF_apply] at hr
    simp only [Option.some.injEq, Prod.mk.injEq] at hr
    obtain ⟨rfl, rfl⟩ := hr
    rw [FM.after_ok, FM.wp_bind, FM.wp_attempt]
    refine FM.wp_mono (wp_qline hE h p fuel slope st hs) ?_
    rintro o st1 hp
    cases o with
    | ok r =>
      simp only [FM.after_ok]
      rw [FM.wp_pure]
      exact hp
    | throw e =>
      simp only [FM.after_ok]
      cases e
      case stepError => exact wp_btSearch hE h p fuel _ st1 (hp.soft trivial)
      all_goals
        simp only
        rw [FM.wp_throw]; exact hp
    | _ => exact hp

end search

/-- Obligations on the operations: `I` holds always but after a foreign failure, `E` always, `J pt s`
when the backend `s` is at the iterate `pt`, `G r s` when the evaluation that returned `r` was the
last one, `D pt dir slope` for a direction at `pt`. `I0` is assumed at the start. -/
structure RunRule (ops : Ops α σ ρ δ) (I0 I E : σ → Prop) (J G : ρ → σ → Prop)
    (D : ρ → δ → α → Prop) : Prop where
  weaken : ∀ s, I s → E s
  construct : ∀ s, I0 s → Keeps I0 E (fun _ _ => True) (ops.construct s)
  setup : ∀ s, I0 s → Keeps (fun _ => True) E (fun pt s' => I s' ∧ J pt s') (ops.setup s)
  restarted : ∀ pt s, I s → J pt s →
    Keeps I E (fun q s' => J pt s' ∧ D pt q.2 q.1) (ops.restarted pt s)
  conjugated : ∀ fr pt dir s pt0 sl0, I s → J pt s → D pt0 dir sl0 →
    Keeps I E (fun q s' => J pt s' ∧ ((lit 0 <ᶠ q.2.1) = false → D pt q.2.2 q.2.1))
      (ops.conjugated fr pt dir s)
  geo : ∀ pt dir sl t s, I s → D pt dir sl → Keeps I E G (ops.geo pt dir t s)
  refresh : ∀ r s, I s → G r s → Keeps I E J (ops.refresh r s)
  gather : ∀ pt s, I s → J pt s → Keeps I E (fun _ s' => J pt s') (ops.gather pt s)
  print : ∀ pt s, I s → J pt s → Keeps I E (fun _ s' => J pt s') (ops.hostPrint s)

variable {ops : Ops α σ ρ δ} {I0 I E : σ → Prop} {J G : ρ → σ → Prop} {D : ρ → δ → α → Prop}

theorem RunRule.json (hr : RunRule ops I0 I E J G D) {rank i : Nat} {slope : α} {pt : ρ}
    {w : NState α σ} {o : Res Unit} {s' : σ} {file' : List (JsonRec α)}
    (h : JsonRun ops rank i slope pt w o s' file') (hI : I w.s) (hJ : J pt w.s) :
    Post I E (fun _ s' => J pt s') o s' := by
  obtain ⟨h1, -⟩ := h
  split at h1
  · have a := hr.gather pt w.s hI hJ
    rw [← h1] at a
    exact a
  · cases h1; exact ⟨hr.weaken _ hI, fun _ => hI, fun _ _ => hJ⟩

theorem Keeps.of_eq {β : Type} {P : β → σ → Prop} {q : Res β × σ} {o : Res β} {s' : σ}
    (h : Keeps I E P q) (e : q = (o, s')) : Post I E P o s' := by
  subst e; exact h

/-- what is known when the loop goes on with `v` -/
def AtVars (J : ρ → σ → Prop) (D : ρ → δ → α → Prop) (v : Vars α ρ δ) (s : σ) : Prop :=
  J v.pt s ∧ D v.pt v.dir v.slope

theorem RunRule.dir (hr : RunRule ops I0 I E J G D) {prm : NlcgParams α} {i : Nat} {v : Vars α ρ δ}
    {r : ρ} {st : LSState α σ} {o : Res (Vars α ρ δ)} {dirs : List (Ev α)} {s' : σ} {force' : Bool}
    (h : DirRun ops prm i v r st o dirs s' force') (hI : I st.s) (hG : G r st.s)
    (hD : D v.pt v.dir v.slope) : Post I E (AtVars J D) o s' := by
  cases h with
  | refresh o s4 h1 h2 => exact ((hr.refresh r st.s hI hG).of_eq h1).fail h2
  | ub pt s4 h1 h2 => exact ⟨((hr.refresh r st.s hI hG).of_eq h1).any, False.elim, by simp⟩
  | steepestFail pt s4 o s5 h1 h2 h3 h4 h5 =>
    have a := (hr.refresh r st.s hI hG).of_eq h1
    exact ((hr.restarted pt s4 (a.soft trivial) (a.ok pt rfl)).of_eq h4).fail h5
  | steepest pt s4 sl dir s5 h1 h2 h3 h4 =>
    have a := (hr.refresh r st.s hI hG).of_eq h1
    have c := (hr.restarted pt s4 (a.soft trivial) (a.ok pt rfl)).of_eq h4
    exact ⟨c.any, fun _ => c.soft trivial, fun v' hv => by cases hv; exact c.ok _ rfl⟩
  | conjugateFail pt s4 o s5 h1 h2 h3 h4 h5 h6 =>
    have a := (hr.refresh r st.s hI hG).of_eq h1
    exact ((hr.conjugated _ pt _ s4 _ _ (a.soft trivial) (a.ok pt rfl) hD).of_eq h5).fail h6
  | conjugate pt s4 fr sl dir s5 h1 h2 h3 h4 h5 h6 =>
    have a := (hr.refresh r st.s hI hG).of_eq h1
    have c := (hr.conjugated _ pt _ s4 _ _ (a.soft trivial) (a.ok pt rfl) hD).of_eq h5
    exact ⟨c.any, fun _ => c.soft trivial, fun v' hv => by
      cases hv; exact ⟨(c.ok _ rfl).1, (c.ok _ rfl).2 h6⟩⟩
  | rejectedFail pt s4 fr cc dir s5 o s6 h1 h2 h3 h4 h5 h6 h7 h8 =>
    have a := (hr.refresh r st.s hI hG).of_eq h1
    have c := (hr.conjugated _ pt _ s4 _ _ (a.soft trivial) (a.ok pt rfl) hD).of_eq h5
    exact ((hr.restarted pt s5 (c.soft trivial) (c.ok _ rfl).1).of_eq h7).fail h8
  | rejected pt s4 fr cc dir s5 sl dir6 s6 h1 h2 h3 h4 h5 h6 h7 =>
    have a := (hr.refresh r st.s hI hG).of_eq h1
    have c := (hr.conjugated _ pt _ s4 _ _ (a.soft trivial) (a.ok pt rfl) hD).of_eq h5
    have e := (hr.restarted pt s5 (c.soft trivial) (c.ok _ rfl).1).of_eq h7
    exact ⟨e.any, fun _ => e.soft trivial, fun v' hv => by cases hv; exact e.ok _ rfl⟩

theorem RunRule.body (hr : RunRule ops I0 I E J G D) {prm : NlcgParams α} {fuel rank i : Nat}
    {v : Vars α ρ δ} {w : NState α σ} {o : Res (Vars α ρ δ)} {w' : NState α σ}
    (h : BodyRun ops prm fuel rank i v w o w') (hI : I w.s) (hJ : J v.pt w.s)
    (hD : D v.pt v.dir v.slope) : Post I E (AtVars J D) o w'.s := by
  cases h with
  | json o s1 file' h1 h2 => exact (hr.json h1 hI hJ).fail h2
  | hostPrint s1 s2 file' o h1 h2 h3 =>
    have a := hr.json h1 hI hJ
    exact ((hr.print v.pt s1 (a.soft trivial) (a.ok _ rfl)).of_eq h2).fail h3
  | search s1 s2 file' o st tr h1 h2 h3 h4 h5 h6 =>
    have a := hr.json h1 hI hJ
    have c := (hr.print v.pt s1 (a.soft trivial) (a.ok _ rfl)).of_eq h2
    exact (wp_lineSearch hr.weaken (fun t s hs => hr.geo v.pt v.dir v.slope t s hs hD) _ _ _ _
      (c.soft trivial) _ _ h3).fail h4
  | searched s1 s2 file' r st _ dirs s' force' h1 h2 h3 h4 =>
    have a := hr.json h1 hI hJ
    have c := (hr.print v.pt s1 (a.soft trivial) (a.ok _ rfl)).of_eq h2
    have hl := wp_lineSearch hr.weaken (fun t s hs => hr.geo v.pt v.dir v.slope t s hs hD) _ _ _ _
      (c.soft trivial) _ _ h3
    exact hr.dir h4 (hl.soft trivial) (hl.ok r rfl) hD

/-- all slopes at the start of an iteration in a list of events belong to directions -/
def StartsOk (D : ρ → δ → α → Prop) (tr : List (Ev α)) : Prop :=
  ∀ i sl, Ev.start i sl ∈ tr → ∃ pt dir, D pt dir sl

theorem BodyRun.starts_mem {ops : Ops α σ ρ δ} {prm : NlcgParams α} {fuel rank i : Nat}
    {v : Vars α ρ δ} {w : NState α σ} {o : Res (Vars α ρ δ)} {w' : NState α σ}
    (h : BodyRun ops prm fuel rank i v w o w') (j : Nat) (sl : α)
    (hm : Ev.start j sl ∈ w'.trace) : Ev.start j sl ∈ w.trace := by
  cases h with
  | json => exact hm
  | hostPrint => simpa [searchStart] using hm
  | search s1 s2 file' o st tr h1 h2 h3 h4 h5 h6 =>
    have : Ev.start j sl ∉ tr := by
      cases o with
      | ok => simp [Res.isOk] at h4
      | throw e => rw [h5 e rfl]; simp
      | ub => rw [h6 (Or.inl rfl)]; simp
      | abort => rw [h6 (Or.inr rfl)]; simp
    simpa [searchStart, this] using hm
  | searched s1 s2 file' r st _ dirs s' force' h1 h2 h3 h4 =>
    have : Ev.start j sl ∉ dirs := by cases h4 <;> simp
    simpa [searchStart, this] using hm

/-- the backend is at an iterate whose slope is below the tolerance -/
def Reached (J : ρ → σ → Prop) (D : ρ → δ → α → Prop) (tol : α) (info : Info α) (s : σ) : Prop :=
  info.converged = true → ∃ pt dir sl, J pt s ∧ D pt dir sl ∧ (Arith.abs sl <ᶠ tol) = true

theorem RunRule.loop (hr : RunRule ops I0 I E J G D) {prm : NlcgParams α} {fuel rank : Nat}
    {n i : Nat} {v : Vars α ρ δ} {w : NState α σ} {o : Res (Info α)} {w' : NState α σ}
    (h : LoopRun ops prm fuel rank n i v w o w') : I w.s → J v.pt w.s → D v.pt v.dir v.slope →
    StartsOk D w.trace → w.info.converged = false →
    StartsOk D w'.trace ∧ Post I E (Reached J D prm.tol) o w'.s := by
  have hst : ∀ (v : Vars α ρ δ) (i : Nat) (tr : List (Ev α)), D v.pt v.dir v.slope → StartsOk D tr →
      StartsOk D (tr ++ [.start i v.slope]) := by
    intro v i tr hD ht j sl hm
    rcases List.mem_append.1 hm with h | h
    · exact ht j sl h
    · simp only [List.mem_singleton, Ev.start.injEq] at h
      exact ⟨v.pt, v.dir, h.2 ▸ hD⟩
  have hst2 : ∀ (v : Vars α ρ δ) (i : Nat) (tr : List (Ev α)) (F S : α), D v.pt v.dir v.slope →
      StartsOk D tr → StartsOk D (tr ++ [.start i v.slope, .report i F S v.slope]) := by
    intro v i tr F S hD ht j sl hm
    exact hst v i tr hD ht j sl (by simpa using hm)
  induction h with
  | limit i v w =>
    intro hI hJ hD ht hc
    refine ⟨ht, hr.weaken _ hI, fun _ => hI, fun info hi hcv => ?_⟩
    cases hi; rw [hc] at hcv; simp at hcv
  | success n i v w s1 s2 file' h1 h2 h3 =>
    intro hI hJ hD ht hc
    have a := hr.json h2 hI hJ
    have c := (hr.print v.pt s1 (a.soft trivial) (a.ok _ rfl)).of_eq h3
    exact ⟨hst2 v i _ _ _ hD ht, c.any, fun _ => c.soft trivial,
      fun info _ _ => ⟨v.pt, v.dir, v.slope, c.ok _ rfl, hD, h1⟩⟩
  | successJson n i v w o s1 file' h1 h2 h3 =>
    intro hI hJ hD ht hc
    exact ⟨hst2 v i _ _ _ hD ht, (hr.json h2 hI hJ).fail h3⟩
  | successPrint n i v w s1 file' o s2 h1 h2 h3 h4 =>
    intro hI hJ hD ht hc
    have a := hr.json h2 hI hJ
    exact ⟨hst2 v i _ _ _ hD ht, ((hr.print v.pt s1 (a.soft trivial) (a.ok _ rfl)).of_eq h3).fail h4⟩
  | step n i v w v' w1 o w' h1 h2 h3 ih =>
    intro hI hJ hD ht hc
    have a := hr.body h2 hI hJ hD
    obtain ⟨c, d⟩ := a.ok v' rfl
    refine ih (a.soft trivial) c d
      (fun j sl hm => hst v i _ hD ht j sl (h2.starts_mem j sl hm)) ?_
    generalize ho : (Res.ok v' : Res (Vars α ρ δ)) = o' at h2
    cases h2 with
    | json o s1 file' g1 g2 => exact absurd ho.symm (by cases o <;> simp_all [Res.fail, Res.isOk])
    | hostPrint s1 s2 file' o g1 g2 g3 =>
      exact absurd ho.symm (by cases o <;> simp_all [Res.fail, Res.isOk])
    | search s1 s2 file' o st tr g1 g2 g3 g4 =>
      exact absurd ho.symm (by cases o <;> simp_all [Res.fail, Res.isOk])
    | searched s1 s2 file' r st _ dirs s' force' g1 g2 g3 g4 => rfl
  | caught n i v w e w1 h1 h2 h3 =>
    intro hI hJ hD ht hc
    have a := hr.body h2 hI hJ hD
    refine ⟨fun j sl hm => hst v i _ hD ht j sl (h2.starts_mem j sl hm), a.any,
      fun _ => a.soft (by rcases h3 with rfl | rfl <;> trivial), fun info hi hcv => ?_⟩
    cases hi
    have : w1.info.converged = false := by
      generalize (Res.throw e : Res (Vars α ρ δ)) = o' at h2
      cases h2 <;> first | exact hc | rfl
    rw [this] at hcv; simp at hcv
  | uncaught n i v w o w1 h1 h2 h3 h4 =>
    intro hI hJ hD ht hc
    exact ⟨fun j sl hm => hst v i _ hD ht j sl (h2.starts_mem j sl hm), (hr.body h2 hI hJ hD).fail h3⟩

/-- The rule: whatever the outcome of a run, `E` holds at its end, every slope tested came with a
direction; if the run returned normally `I` holds, and if it converged the backend is at the iterate
whose slope was tested. -/
theorem RunRule.run (hr : RunRule ops I0 I E J G D) {prm : NlcgParams α} {fuel rank : Nat}
    {w : NState α σ} {o : Res (Info α)} {w' : NState α σ}
    (h : nlcg ops prm fuel rank w = some (o, w')) (h0 : I0 w.s) :
    E w'.s ∧ StartsOk D w'.trace ∧
      ∀ info, o = .ok info → I w'.s ∧ Reached J D prm.tol info w'.s := by
  have fl : ∀ {β : Type} (r : Res β) (P : Info α → Prop), r.isOk = false → ∀ info,
      (r.fail : Res (Info α)) = .ok info → P info := by
    intro β r P h info hi
    exact absurd hi (by cases r <;> simp_all [Res.fail, Res.isOk])
  cases nlcg_run ops prm fuel rank w o w' h with
  | construct o s1 h1 h2 =>
    exact ⟨((hr.construct w.s h0).of_eq h1).any, by intro i sl hm; simp at hm, fl o _ h2⟩
  | setup s1 o s2 h1 h2 h3 =>
    have a := ((hr.construct w.s h0).of_eq h1).soft trivial
    exact ⟨((hr.setup s1 a).of_eq h2).any, by intro i sl hm; simp at hm, fl o _ h3⟩
  | restarted s1 pt s2 o s3 h1 h2 h3 h4 =>
    have a := ((hr.construct w.s h0).of_eq h1).soft trivial
    have c := (hr.setup s1 a).of_eq h2
    exact ⟨((hr.restarted pt s2 (c.ok pt rfl).1 (c.ok pt rfl).2).of_eq h3).any,
      by intro i sl hm; simp at hm, fl o _ h4⟩
  | loop s1 pt s2 slope dir s3 o w' h1 h2 h3 h4 =>
    have a := ((hr.construct w.s h0).of_eq h1).soft trivial
    have c := (hr.setup s1 a).of_eq h2
    have e := (hr.restarted pt s2 (c.ok pt rfl).1 (c.ok pt rfl).2).of_eq h3
    obtain ⟨p, q⟩ := hr.loop h4 (e.soft trivial) (e.ok _ rfl).1 (e.ok _ rfl).2
      (by intro i sl hm; simp at hm) rfl
    exact ⟨q.any, p, fun info hi => ⟨q.soft (hi ▸ trivial), q.ok info hi⟩⟩

end Nlcg
