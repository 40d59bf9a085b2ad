import Verif.Model.Timed
import Verif.Proofs.RunRule

/-! The driver with its stopwatch: helpers. -/

namespace Nlcg
open Arith
variable {α σ ρ δ τ β γ : Type} [Arith α]

/-! ## The run without the stopwatch -/

/-- `m'` does what `m` does on the first component -/
def Shadows (m' : FM (τ × Watch) β) (m : FM τ β) : Prop :=
  ∀ w u, (m' (w, u)).map (fun x => (x.1, x.2.1)) = m w

theorem Shadows.bind {m' : FM (τ × Watch) β} {m : FM τ β} {f' : β → FM (τ × Watch) γ} {f : β → FM τ γ}
    (h : Shadows m' m) (hf : ∀ b, Shadows (f' b) (f b)) : Shadows (m' >>= f') (m >>= f) := by
  intro w u
  have hw := h w u
  rw [FM.bind_apply, FM.bind_apply, ← hw]
  cases hm : m' (w, u) with
  | none => rfl
  | some q =>
    obtain ⟨r, w1, u1⟩ := q
    cases r with
    | ok b => simpa using hf b w1 u1
    | throw e => rfl
    | ub => rfl
    | abort => rfl

theorem Shadows.unwatched (m : FM τ β) : Shadows (unwatched m) m := by
  intro w u
  unfold Nlcg.unwatched
  dsimp only
  cases m w with
  | none => rfl
  | some q => rfl

theorem Shadows.pure (b : β) : Shadows (τ := τ) (pure b) (pure b) := fun _ _ => rfl
theorem Shadows.throw (e : Exc) : Shadows (τ := τ) (β := β) (FM.throw e) (FM.throw e) := fun _ _ => rfl
theorem Shadows.ub : Shadows (τ := τ) (β := β) FM.ub FM.ub := fun _ _ => rfl

omit [Arith α] in
theorem Shadows.start {clock : σ → Int} {f' : Unit → FM (NState α σ × Watch) β} {m : FM (NState α σ) β}
    (h : Shadows (f' ()) m) : Shadows (timerStart clock >>= f') m := fun w _ => h w _

omit [Arith α] in
theorem Shadows.stop {clock : σ → Int} {k : LapKind} {f' : Unit → FM (NState α σ × Watch) β}
    {m : FM (NState α σ) β} (h : Shadows (f' ()) m) : Shadows (timerStop clock k >>= f') m := fun w _ => h w _

omit [Arith α] in
theorem Shadows.then_stop {clock : σ → Int} {k : LapKind} {m' : FM (NState α σ × Watch) β} {m : FM (NState α σ) β}
    (h : Shadows m' m) : Shadows (m' >>= fun b => timerStop clock k >>= fun _ => Pure.pure b) m := by
  intro w u
  have hw := h w u
  rw [FM.bind_apply, ← hw]
  cases hm : m' (w, u) with
  | none => rfl
  | some q =>
    obtain ⟨r, w1, u1⟩ := q
    cases r <;> rfl

theorem Shadows.fresh {u0 : Watch} {f' : Unit → FM (τ × Watch) β} {m : FM τ β}
    (h : Shadows (f' ()) m) : Shadows ((FM.modify fun p => (p.1, u0)) >>= f') m := fun w _ => h w u0

theorem Shadows.get {f' : τ × Watch → FM (τ × Watch) β} {f : τ → FM τ β}
    (h : ∀ p, Shadows (f' p) (f p.1)) : Shadows (FM.get >>= f') (FM.get >>= f) := fun w u => h (w, u) w u

theorem Shadows.attempt {m' : FM (τ × Watch) β} {m : FM τ β} (h : Shadows m' m) :
    Shadows (FM.attempt m') (FM.attempt m) := by
  intro w u
  have hw := h w u
  unfold FM.attempt
  rw [← hw]
  cases hm : m' (w, u) with
  | none => rfl
  | some q =>
    obtain ⟨r, w1, u1⟩ := q
    cases r <;> rfl

theorem cgBodyT_shadows (ops : Ops α σ ρ δ) (clock : σ → Int) (prm : NlcgParams α) (fuel rank i : Nat)
    (v : Vars α ρ δ) : Shadows (cgBodyT ops clock prm fuel rank i v) (cgBody ops prm fuel rank i v) := by
  unfold cgBodyT cgBody
  refine .bind (.unwatched _) fun _ => .start (.bind (.unwatched _) fun _ => .bind (.unwatched _) fun _ =>
    .bind (.unwatched _) fun r => .stop (.bind (.unwatched _) fun pt => ?_))
  split
  · exact .ub
  · refine .get fun w => ?_
    split
    · exact .start (.then_stop (.unwatched _))
    · refine .start (.bind (.unwatched _) fun q => .bind (.unwatched _) fun _ => ?_)
      split
      · exact .bind (.unwatched _) fun v' => .bind (.unwatched _) fun _ => .stop (.pure _)
      · exact .stop (.pure _)

theorem cgLoopT_shadows (ops : Ops α σ ρ δ) (clock : σ → Int) (prm : NlcgParams α) (fuel rank : Nat) :
    ∀ (n i : Nat) (v : Vars α ρ δ), Shadows (cgLoopT ops clock prm fuel rank n i v) (cgLoop ops prm fuel rank n i v)
  | 0, i, v => .get fun _ => .pure _
  | n + 1, i, v => by
    unfold cgLoopT cgLoop
    refine .bind (.unwatched _) fun _ => ?_
    split
    · exact .unwatched _
    · refine .bind (.attempt (cgBodyT_shadows ops clock prm fuel rank i v)) fun r => ?_
      rcases r with e | v'
      · cases e
        case descentError => exact .get fun _ => .pure _
        case slopeError => exact .get fun _ => .pure _
        all_goals exact .throw _
      · exact cgLoopT_shadows ops clock prm fuel rank n (i + 1) v'

theorem nlcgT_shadows (ops : Ops α σ ρ δ) (clock : σ → Int) (prm : NlcgParams α) (fuel rank : Nat) :
    Shadows (nlcgT ops clock prm fuel rank) (nlcg ops prm fuel rank) := by
  unfold nlcgT nlcg
  exact .bind (.unwatched _) fun _ => .bind (.unwatched _) fun _ => .fresh (.bind (.unwatched _) fun _ =>
    .bind (.unwatched _) fun pt => .bind (.unwatched _) fun q => .bind (.unwatched _) fun _ =>
      cgLoopT_shadows ops clock prm fuel rank _ _ _)

/-! ## Invariants of clock and stopwatch -/

/-- `I` holds of the time shown by the clock and of the stopwatch -/
def Shows (clock : σ → Int) (I : Int → Watch → Prop) (p : NState α σ × Watch) : Prop := I (clock p.1.s) p.2

/-- after a failure -/
def LapEnd (clock : σ → Int) (I S : Int → Watch → Prop) (thrown : Bool) (p : NState α σ × Watch) : Prop :=
  Shows clock I p ∨ (Shows clock S p ∧ (thrown = true → ∃ i e, Ev.failed i e ∈ p.1.trace))

/-- from `P`, `m` leads to `Q` or fails -/
def Leads (clock : σ → Int) (I S : Int → Watch → Prop) (P : NState α σ × Watch → Prop)
    (m : FM (NState α σ × Watch) β) (Q : β → NState α σ × Watch → Prop) : Prop :=
  ∀ p, P p → FM.wp m (fun o p' => match o with
    | .ok b => Q b p'
    | .throw _ => LapEnd clock I S true p'
    | .ub => LapEnd clock I S false p'
    | .abort => LapEnd clock I S false p') p

section
variable {clock : σ → Int} {I S : Int → Watch → Prop}

omit [Arith α] in
theorem Leads.bind {P : NState α σ × Watch → Prop} {m : FM (NState α σ × Watch) β}
    {Q : β → NState α σ × Watch → Prop} {f : β → FM (NState α σ × Watch) γ} {R : γ → NState α σ × Watch → Prop}
    (h : Leads clock I S P m Q) (hf : ∀ b, Leads clock I S (Q b) (f b) R) : Leads clock I S P (m >>= f) R := by
  intro p hp
  rw [FM.wp_bind]
  refine FM.wp_mono (h p hp) fun o p' hq => ?_
  cases o with
  | ok b => exact hf b p' hq
  | throw e => exact hq
  | ub => exact hq
  | abort => exact hq

omit [Arith α] in
theorem Leads.pure {P : NState α σ × Watch → Prop} {Q : β → NState α σ × Watch → Prop} (b : β)
    (h : ∀ p, P p → Q b p) : Leads clock I S P (pure b) Q := by
  intro p hp
  rw [FM.wp_pure]
  exact h p hp

omit [Arith α] in
theorem Leads.modify {P : NState α σ × Watch → Prop} {Q : Unit → NState α σ × Watch → Prop}
    {f : NState α σ × Watch → NState α σ × Watch} (h : ∀ p, P p → Q () (f p)) :
    Leads clock I S P (FM.modify f) Q := by
  intro p hp
  rw [FM.wp_modify]
  exact h p hp

omit [Arith α] in
theorem Leads.get {P : NState α σ × Watch → Prop} {f : NState α σ × Watch → FM (NState α σ × Watch) β}
    {R : β → NState α σ × Watch → Prop} (h : ∀ q, Leads clock I S P (f q) R) :
    Leads clock I S P (FM.get >>= f) R := by
  intro p hp
  rw [FM.wp_bind, FM.wp_get]
  exact h p p hp

omit [Arith α] in
/-- an operation, from a property of clock and stopwatch to another, that leaves `I` behind if it fails -/
theorem Leads.op {P Q : Int → Watch → Prop} (f : σ → Res β × σ)
    (h : ∀ s u, P (clock s) u → Q (clock (f s).2) u ∧ ((∀ b, (f s).1 ≠ .ok b) → I (clock (f s).2) u)) :
    Leads (α := α) clock I S (Shows clock P) (unwatched (liftOp f)) fun _ => Shows clock Q := by
  intro p hp o p' he
  obtain ⟨w, u⟩ := p
  simp only [unwatched, liftOp, Option.some.injEq, Prod.mk.injEq] at he
  obtain ⟨rfl, rfl⟩ := he
  have := h w.s u hp
  generalize f w.s = q at this
  obtain ⟨r, s1⟩ := q
  cases r with
  | ok b => exact this.1
  | throw e => exact Or.inl (this.2 fun _ => by simp)
  | ub => exact Or.inl (this.2 fun _ => by simp)
  | abort => exact Or.inl (this.2 fun _ => by simp)

omit [Arith α] in
/-- what changes neither the world nor the stopwatch -/
theorem Leads.inert {P : Int → Watch → Prop} {f : NState α σ → NState α σ} (h : ∀ w, (f w).s = w.s) :
    Leads clock I S (Shows clock P) (unwatched (FM.modify f)) fun _ => Shows clock P := by
  intro p hp o p' he
  obtain ⟨w, u⟩ := p
  simp only [unwatched, FM.modify_apply, Option.some.injEq, Prod.mk.injEq] at he
  obtain ⟨rfl, rfl⟩ := he
  simp only [Shows, h] at hp ⊢
  exact hp

omit [Arith α] in
theorem Leads.json {P : Int → Watch → Prop} (ops : Ops α σ ρ δ) (rank i : Nat) (slope : α) (pt : ρ)
    (h : ∀ s u, P (clock s) u → P (clock (ops.gather pt s).2) u) (hI : ∀ c u, P c u → I c u) :
    Leads (α := α) clock I S (Shows clock P) (unwatched (writeJson ops rank i slope pt)) fun _ => Shows clock P := by
  intro p hp o p' he
  obtain ⟨w, u⟩ := p
  simp only [unwatched, writeJson, Option.some.injEq, Prod.mk.injEq] at he
  obtain ⟨rfl, rfl⟩ := he
  have : P (clock (if i % 10 = 0 then ops.gather pt w.s else (.ok (), w.s)).2) u := by
    split
    · exact h _ _ hp
    · exact hp
  generalize hg : (if i % 10 = 0 then ops.gather pt w.s else (.ok (), w.s)) = g at this
  cases g.1 with
  | ok b => exact this
  | throw e => exact Or.inl (hI _ _ this)
  | ub => exact Or.inl (hI _ _ this)
  | abort => exact Or.inl (hI _ _ this)

theorem Leads.search (ops : Ops α σ ρ δ) (prm : NlcgParams α) (fuel i : Nat) (v : Vars α ρ δ)
    (h : ∀ pt d t s u, S (clock s) u → S (clock (ops.geo pt d t s).2) u) :
    Leads (α := α) clock I S (Shows clock S) (unwatched (runSearch ops prm fuel i v)) fun _ => Shows clock S := by
  intro p hp o p' he
  obtain ⟨w, u⟩ := p
  have key : FM.wp (runSearch ops prm fuel i v) (fun o w' => S (clock w'.s) u ∧
      (∀ e, o = .throw e → ∃ i e, Ev.failed i e ∈ w'.trace)) w := by
    refine wp_runSearch ops prm fuel i v _ w fun o st hl => ?_
    have hk := (wp_lineSearch (env := { G := ops.geo v.pt v.dir, getF := ops.getF })
      (I := fun s => S (clock s) u) (E := fun s => S (clock s) u) (P := fun _ _ => True) (fun _ hs => hs)
      (fun t s hs => ⟨h _ _ t s u hs, fun _ => h _ _ t s u hs, fun _ _ => trivial⟩) _ fuel v.slope
      { s := w.s, forceRestart := w.force, evals := [] } hp o st hl).any
    cases o with
    | ok r => exact ⟨hk, fun e he => by cases he⟩
    | throw e => exact ⟨hk, fun _ _ => ⟨i, e, by simp⟩⟩
    | ub => exact ⟨hk, fun e he => by cases he⟩
    | abort => exact ⟨hk, fun e he => by cases he⟩
  cases hm : runSearch ops prm fuel i v w with
  | none => simp [unwatched, hm] at he
  | some q =>
    obtain ⟨r, w'⟩ := q
    simp only [unwatched, hm, Option.some.injEq, Prod.mk.injEq] at he
    obtain ⟨rfl, rfl⟩ := he
    obtain ⟨h1, h2⟩ := key _ _ hm
    cases r with
    | ok b => exact h1
    | throw e => exact Or.inr ⟨h1, fun _ => h2 e rfl⟩
    | ub => exact Or.inr ⟨h1, by simp⟩
    | abort => exact Or.inr ⟨h1, by simp⟩
end

/-- `I`: when the stopwatch is not in use, `B`, `S`: before and during a line search, `D`: while a direction is computed -/
structure LapRule (ops : Ops α σ ρ δ) (clock : σ → Int) (I B S D : Int → Watch → Prop) : Prop where
  gather : ∀ pt s u, I (clock s) u → I (clock (ops.gather pt s).2) u
  print : ∀ s u, I (clock s) u → I (clock (ops.hostPrint s).2) u
  refresh : ∀ r s u, I (clock s) u → I (clock (ops.refresh r s).2) u
  startB : ∀ c u, I c u → B c { u with t := c }
  startD : ∀ c u, I c u → D c { u with t := c }
  printB : ∀ s u, B (clock s) u → B (clock (ops.hostPrint s).2) u
  idleB : ∀ c u, B c u → I c u
  search : ∀ c u, B c u → S c u
  geo : ∀ pt d t s u, S (clock s) u → S (clock (ops.geo pt d t s).2) u
  stopS : ∀ c u, S c u → I c { u with laps := u.laps ++ [(.search, c - u.t)] }
  restarted : ∀ pt s u, D (clock s) u → D (clock (ops.restarted pt s).2) u
  conjugated : ∀ fr pt d s u, D (clock s) u → D (clock (ops.conjugated fr pt d s).2) u
  restartedFails : ∀ pt s u, D (clock s) u → (∀ q, (ops.restarted pt s).1 ≠ .ok q) → I (clock (ops.restarted pt s).2) u
  conjugatedFails : ∀ fr pt d s u, D (clock s) u → (∀ q, (ops.conjugated fr pt d s).1 ≠ .ok q) →
    I (clock (ops.conjugated fr pt d s).2) u
  stopD : ∀ k c u, k ≠ .search → D c u → I c { u with laps := u.laps ++ [(k, c - u.t)] }

section
variable {ops : Ops α σ ρ δ} {clock : σ → Int} {I B S D : Int → Watch → Prop}

omit [Arith α] in
theorem LapRule.callRestarted (hr : LapRule ops clock I B S D) (i : Nat) (pt : ρ) :
    Leads (α := α) clock I S (Shows clock D) (unwatched (Nlcg.callRestarted ops i pt)) fun _ => Shows clock D := by
  intro p hp o p' he
  obtain ⟨w, u⟩ := p
  have h := hr.restarted pt w.s u hp
  have hf := hr.restartedFails pt w.s u hp
  generalize hq : ops.restarted pt w.s = q at h hf
  obtain ⟨r, s1⟩ := q
  cases r with
  | ok b =>
    simp only [unwatched, Nlcg.callRestarted, FM.bind_apply, liftOp, hq, emit, FM.modify_apply, FM.pure_apply,
      Option.some.injEq, Prod.mk.injEq] at he
    obtain ⟨rfl, rfl⟩ := he
    exact h
  | throw e =>
    simp only [unwatched, Nlcg.callRestarted, FM.bind_apply, liftOp, hq, Option.some.injEq, Prod.mk.injEq] at he
    obtain ⟨rfl, rfl⟩ := he
    exact Or.inl (hf fun _ => by simp)
  | ub =>
    simp only [unwatched, Nlcg.callRestarted, FM.bind_apply, liftOp, hq, Option.some.injEq, Prod.mk.injEq] at he
    obtain ⟨rfl, rfl⟩ := he
    exact Or.inl (hf fun _ => by simp)
  | abort =>
    simp only [unwatched, Nlcg.callRestarted, FM.bind_apply, liftOp, hq, Option.some.injEq, Prod.mk.injEq] at he
    obtain ⟨rfl, rfl⟩ := he
    exact Or.inl (hf fun _ => by simp)

theorem LapRule.body (hr : LapRule ops clock I B S D) (prm : NlcgParams α) (fuel rank i : Nat) (v : Vars α ρ δ) :
    Leads (α := α) clock I S (Shows clock I) (cgBodyT ops clock prm fuel rank i v) fun _ => Shows clock I := by
  unfold cgBodyT
  have hdir : ∀ k : LapKind, k ≠ .search → Leads (α := α) clock I S (Shows clock D) (timerStop clock k)
      fun _ => Shows clock I := fun k hk => .modify fun p hp => hr.stopD k _ _ hk hp
  have hstart : Leads (α := α) clock I S (Shows clock I) (timerStart clock) fun _ => Shows clock D :=
    .modify fun p hp => hr.startD _ _ hp
  refine .bind (.json ops rank i v.slope v.pt (hr.gather v.pt) fun _ _ h => h) fun _ =>
    .bind (Q := fun _ => Shows clock B) (.modify fun p hp => hr.startB _ _ hp) fun _ =>
    .bind (Q := fun _ => Shows clock B) (.inert fun _ => rfl) fun _ =>
    .bind (Q := fun _ => Shows clock S) (.op _ fun s u h => ⟨hr.search _ _ (hr.printB s u h), fun _ => hr.idleB _ _ (hr.printB s u h)⟩) fun _ =>
    .bind (.search ops prm fuel i v hr.geo) fun r =>
    .bind (Q := fun _ => Shows clock I) (.modify fun p hp => hr.stopS _ _ hp) fun _ =>
    .bind (Q := fun _ => Shows clock I) (.op _ fun s u h => ⟨hr.refresh r s u h, fun _ => hr.refresh r s u h⟩) fun pt => ?_
  split
  · intro p hp
    rw [FM.wp_ub]
    exact Or.inl hp
  · refine .get fun w => ?_
    split
    · exact .bind hstart fun _ => .bind (hr.callRestarted i pt) fun v' =>
        .bind (hdir .steepest (by decide)) fun _ => .pure _ fun _ h => h
    · refine .bind hstart fun _ => .bind (Q := fun _ => Shows clock D) (.op _ fun s u h =>
        ⟨hr.conjugated _ _ _ s u h, hr.conjugatedFails _ _ _ s u h⟩) fun q =>
        .bind (Q := fun _ => Shows clock D) (.inert fun _ => rfl) fun _ => ?_
      split
      · exact .bind (hr.callRestarted i pt) fun v' => .bind (Q := fun _ => Shows clock D) (.inert fun _ => rfl) fun _ =>
          .bind (hdir .conjugate (by decide)) fun _ => .pure _ fun _ h => h
      · exact .bind (hdir .conjugate (by decide)) fun _ => .pure _ fun _ h => h

/-- at the end of the loop -/
theorem LapRule.loop (hr : LapRule ops clock I B S D) (prm : NlcgParams α) (fuel rank : Nat) :
    ∀ (n i : Nat) (v : Vars α ρ δ), Leads (α := α) clock I S (Shows clock I) (cgLoopT ops clock prm fuel rank n i v)
      fun _ => LapEnd clock I S true
  | 0, i, v => .get fun _ => .pure _ fun _ h => Or.inl h
  | n + 1, i, v => by
    unfold cgLoopT
    refine .bind (Q := fun _ => Shows clock I) (.inert fun _ => rfl) fun _ => ?_
    split
    · intro p hp o p' he
      obtain ⟨w, u⟩ := p
      have key : FM.wp (cgSuccess ops rank i v) (fun _ w' => I (clock w'.s) u) w := by
        unfold cgSuccess
        rw [FM.wp_bind, wp_setInfo, FM.after_ok, FM.wp_bind]
        refine wp_writeJson _ _ _ _ _ _ _ fun o s' file' hj => ?_
        have h1 : I (clock s') u := by
          have := hj.1
          split at this
          · have e : s' = (ops.gather v.pt w.s).2 := congrArg Prod.snd this
            rw [e]; exact hr.gather _ _ _ hp
          · cases this; exact hp
        cases o with
        | ok _ =>
          rw [FM.after_ok, FM.wp_bind, wp_liftOp]
          have h2 := hr.print s' u h1
          generalize ops.hostPrint s' = q at h2
          obtain ⟨r, s2⟩ := q
          cases r with
          | ok _ =>
            rw [FM.after_ok, FM.wp_bind, FM.wp_modify, FM.after_ok, FM.wp_bind, FM.wp_get, FM.after_ok, FM.wp_pure]
            exact h2
          | throw e => exact h2
          | ub => exact h2
          | abort => exact h2
        | throw e => exact h1
        | ub => exact h1
        | abort => exact h1
      cases hm : cgSuccess ops rank i v w with
      | none => simp [unwatched, hm] at he
      | some q =>
        obtain ⟨r, w'⟩ := q
        simp only [unwatched, hm, Option.some.injEq, Prod.mk.injEq] at he
        obtain ⟨rfl, rfl⟩ := he
        have := key _ _ hm
        cases r with
        | ok b => exact Or.inl this
        | throw e => exact Or.inl this
        | ub => exact Or.inl this
        | abort => exact Or.inl this
    · intro p hp
      rw [FM.wp_bind, FM.wp_attempt]
      refine FM.wp_mono (hr.body prm fuel rank i v p hp) fun o p' hq => ?_
      cases o with
      | ok v' => exact hr.loop prm fuel rank n (i + 1) v' p' hq
      | throw e =>
        cases e
        case descentError => show FM.wp (FM.get >>= _) _ _; rw [FM.wp_bind, FM.wp_get, FM.after_ok, FM.wp_pure]; exact hq
        case slopeError => show FM.wp (FM.get >>= _) _ _; rw [FM.wp_bind, FM.wp_get, FM.after_ok, FM.wp_pure]; exact hq
        all_goals (show FM.wp (FM.throw _) _ _; rw [FM.wp_throw]; exact hq)
      | ub => exact hq
      | abort => exact hq

/-- whole runs: `I` holds at the end, except that a failed line search leaves `S` -/
theorem LapRule.run (hr : LapRule ops clock I B S D) {P0 : Int → Watch → Prop}
    (hc : ∀ s u, P0 (clock s) u → P0 (clock (ops.construct s).2) u)
    (h0 : ∀ c u, P0 c u → I c ⟨0, []⟩) (hP : ∀ c u, P0 c u → I c u)
    (hs : ∀ s u, I (clock s) u → I (clock (ops.setup s).2) u)
    (hd : ∀ pt s u, I (clock s) u → I (clock (ops.restarted pt s).2) u)
    (prm : NlcgParams α) (fuel rank : Nat) :
    Leads (α := α) clock I S (Shows clock P0) (nlcgT ops clock prm fuel rank) fun _ => LapEnd clock I S true := by
  unfold nlcgT
  exact .bind (.inert fun _ => rfl) fun _ => .bind (Q := fun _ => Shows clock P0)
    (.op _ fun s u h => ⟨hc s u h, fun _ => hP _ _ (hc s u h)⟩) fun _ =>
    .bind (Q := fun _ => Shows clock I) (.modify fun p hp => h0 _ _ hp) fun _ =>
    .bind (.inert fun _ => rfl) fun _ =>
    .bind (Q := fun _ => Shows clock I) (.op _ fun s u h => ⟨hs s u h, fun _ => hs s u h⟩) fun pt =>
    .bind (Q := fun _ => Shows clock I) (.op _ fun s u h => ⟨hd pt s u h, fun _ => hd pt s u h⟩) fun q =>
    .bind (.inert fun _ => rfl) fun _ => hr.loop prm fuel rank _ _ _
end

/-! ## Sums of times -/

theorem sum_append_one (l : List Int) (x : Int) : (l ++ [x]).sum = l.sum + x := by simp

end Nlcg
