import Verif.Spec.OutFile

/-!
# Runs with messages: helpers
-/

namespace Nlcg
open Arith
variable {α σ ρ δ τ β γ : Type} [Arith α]

/-! ## The run without the messages -/

/-- `m'` does what `m` does on the first component -/
structure Follows (m' : FM (τ × List (OutOp α)) β) (m : FM τ β) : Prop where
  same : ∀ w o, (m' (w, o)).map (fun x => (x.1, x.2.1)) = m w

omit [Arith α] in
theorem Follows.bind {m' : FM (τ × List (OutOp α)) β} {m : FM τ β}
    {f' : β → FM (τ × List (OutOp α)) γ} {f : β → FM τ γ} (h : Follows m' m)
    (hf : ∀ b, Follows (f' b) (f b)) : Follows (m' >>= f') (m >>= f) := by
  refine ⟨fun w o => ?_⟩
  have hw := h.same w o
  rw [FM.bind_apply, FM.bind_apply, ← hw]
  cases hm : m' (w, o) with
  | none => rfl
  | some q =>
    obtain ⟨r, w1, o1⟩ := q
    cases r with
    | ok b => simpa using (hf b).same w1 o1
    | throw e => rfl
    | ub => rfl
    | abort => rfl

omit [Arith α] in
theorem Follows.silent (m : FM τ β) : Follows (silent (α := α) m) m := by
  refine ⟨fun w o => ?_⟩
  unfold Nlcg.silent
  dsimp only
  cases m w with
  | none => rfl
  | some q => rfl

omit [Arith α] in
theorem Follows.pure (b : β) : Follows (α := α) (τ := τ) (pure b) (pure b) := ⟨fun _ _ => rfl⟩

omit [Arith α] in
theorem Follows.throw (e : Exc) : Follows (α := α) (τ := τ) (β := β) (FM.throw e) (FM.throw e) :=
  ⟨fun _ _ => rfl⟩

omit [Arith α] in
theorem Follows.ub : Follows (α := α) (τ := τ) (β := β) FM.ub FM.ub := ⟨fun _ _ => rfl⟩

omit [Arith α] in
theorem Follows.stuck : Follows (α := α) (τ := τ) (β := β) FM.stuck FM.stuck := ⟨fun _ _ => rfl⟩

omit [Arith α] in
/-- a message in front changes nothing -/
theorem Follows.outs {l : List (OutOp α)} {f' : Unit → FM (τ × List (OutOp α)) β} {m : FM τ β}
    (h : Follows (f' ()) m) : Follows (Nlcg.outs l >>= f') m := ⟨fun w o => h.same w (o ++ l)⟩

omit [Arith α] in
theorem Follows.note {t : String} {f' : Unit → FM (τ × List (OutOp α)) β} {m : FM τ β}
    (h : Follows (f' ()) m) : Follows (Nlcg.note t >>= f') m := Follows.outs h

omit [Arith α] in
/-- a new file -/
theorem Follows.fresh {f' : Unit → FM (τ × List (OutOp α)) β} {m : FM τ β}
    (h : Follows (f' ()) m) : Follows ((FM.modify fun p => (p.1, [])) >>= f') m :=
  ⟨fun w _ => h.same w []⟩

omit [Arith α] in
/-- reading the state -/
theorem Follows.get {f' : τ × List (OutOp α) → FM (τ × List (OutOp α)) β} {f : τ → FM τ β}
    (h : ∀ p, Follows (f' p) (f p.1)) : Follows (FM.get >>= f') (FM.get >>= f) :=
  ⟨fun w o => (h (w, o)).same w o⟩

omit [Arith α] in
theorem Follows.get_only {f' : τ × List (OutOp α) → FM (τ × List (OutOp α)) β} {m : FM τ β}
    (h : ∀ p, Follows (f' p) m) : Follows (FM.get >>= f') m :=
  ⟨fun w o => (h (w, o)).same w o⟩

omit [Arith α] in
theorem Follows.attempt {m' : FM (τ × List (OutOp α)) β} {m : FM τ β} (h : Follows m' m) :
    Follows (FM.attempt m') (FM.attempt m) := by
  refine ⟨fun w o => ?_⟩
  have hw := h.same w o
  unfold FM.attempt
  rw [← hw]
  cases hm : m' (w, o) with
  | none => rfl
  | some q =>
    obtain ⟨r, w1, o1⟩ := q
    cases r <;> rfl

omit [Arith α] in
theorem evalGOut_follows (env : LSEnv α σ ρ) (oe : α → σ → List (Option String)) (t : α) :
    Follows (evalGOut env oe t) (evalG env t) :=
  .get_only fun _ => .outs (.silent _)

theorem btLoopOut_follows (env : LSEnv α σ ρ) (oe : α → σ → List (Option String)) (tau F0 : α) :
    ∀ (n : Nat) (t : α), Follows (btLoopOut env oe tau F0 n t) (btLoop env tau F0 n t)
  | 0, t => by
    unfold btLoopOut btLoop
    split
    · exact .stuck
    · exact .pure _
  | n + 1, t => by
    unfold btLoopOut btLoop
    split
    · refine .bind (evalGOut_follows ..) fun r => .bind (.silent _) fun Fp => .note ?_
      split
      · exact .note (.bind (.silent _) fun _ => .pure _)
      · exact .note (btLoopOut_follows env oe tau F0 n _)
    · exact .pure _

theorem btSearchOut_follows (env : LSEnv α σ ρ) (oe : α → σ → List (Option String)) (p : LSParams α)
    (fuel : Nat) (F0 : α) : Follows (btSearchOut env oe p fuel F0) (btSearch env p fuel F0) := by
  unfold btSearchOut btSearch
  split
  · exact .throw _
  · refine .bind (btLoopOut_follows ..) fun r => ?_
    cases r with
    | some r => exact .pure _
    | none =>
      refine .outs (.get fun q => ?_)
      split
      · exact .throw _
      · exact .bind (.silent _) fun _ => evalGOut_follows ..

theorem qlineLoopOut_follows (env : LSEnv α σ ρ) (oe : α → σ → List (Option String)) (F0 slope : α) :
    ∀ (n : Nat) (t : α), Follows (qlineLoopOut env oe F0 slope n t) (qlineLoop env F0 slope n t)
  | 0, t => .stuck
  | n + 1, t => by
    unfold qlineLoopOut qlineLoop
    refine .bind (evalGOut_follows ..) fun r => .bind (.silent _) fun F1 => ?_
    dsimp only
    split
    · exact .note (qlineLoopOut_follows env oe F0 slope n _)
    · exact .pure _

theorem qlineOut_follows (env : LSEnv α σ ρ) (oe : α → σ → List (Option String)) (p : LSParams α)
    (fuel : Nat) (slope : α) : Follows (qlineOut env oe p fuel slope) (qline env p fuel slope) := by
  unfold qlineOut qline
  refine .bind (.silent _) fun F0 => .bind (qlineLoopOut_follows ..) fun t =>
    .bind (evalGOut_follows ..) fun r => .bind (.silent _) fun Fm => .note ?_
  split
  · exact .note (.throw _)
  · exact .bind (.silent _) fun _ => .pure _

theorem lineSearchOut_follows (env : LSEnv α σ ρ) (oe : α → σ → List (Option String)) (p : LSParams α)
    (fuel : Nat) (slope : α) : Follows (lineSearchOut env oe p fuel slope) (lineSearch env p fuel slope) := by
  unfold lineSearchOut lineSearch
  split
  · exact .throw _
  · refine .note (.bind (.silent _) fun F0 => .bind (.attempt (qlineOut_follows ..)) fun r => ?_)
    cases r with
    | ok r => exact .pure _
    | error e =>
      cases e
      case stepError => exact .note (btSearchOut_follows ..)
      all_goals exact .throw _

theorem runSearchOut_follows (ops : Ops α σ ρ δ) (oe : OutEnv α σ ρ δ) (prm : NlcgParams α) (fuel i : Nat)
    (v : Vars α ρ δ) : Follows (runSearchOut ops oe prm fuel i v) (runSearch ops prm fuel i v) := by
  refine ⟨fun w o => ?_⟩
  have h := (lineSearchOut_follows { G := ops.geo v.pt v.dir, getF := ops.getF } (oe.geo v.pt v.dir)
    { tTrial := lit (2 / 10), tau := prm.tau } fuel v.slope).same
    { s := w.s, forceRestart := w.force, evals := [] } o
  unfold runSearchOut runSearch
  dsimp only
  rw [← h]
  generalize lineSearchOut (α := α) _ _ _ _ _ _ = q
  cases q with
  | none => rfl
  | some q =>
    obtain ⟨r, w1, o1⟩ := q
    cases r <;> rfl

theorem setInfoOut_follows (ops : Ops α σ ρ δ) (i : Nat) (slope : α) :
    Follows (setInfoOut ops i slope) (setInfo ops i slope) :=
  .get_only fun _ => .outs (.silent _)

omit [Arith α] in
theorem callRestartedOut_follows (ops : Ops α σ ρ δ) (oe : OutEnv α σ ρ δ) (i : Nat) (pt : ρ) :
    Follows (callRestartedOut ops oe i pt) (callRestarted ops i pt) :=
  .get_only fun _ => .outs (.silent _)

omit [Arith α] in
/-- trailing messages change nothing -/
theorem Follows.trail {m' : FM (τ × List (OutOp α)) β} {m : FM τ β} (h : Follows m' m) (t : String) :
    Follows (m' >>= fun b => Nlcg.note t >>= fun _ => Nlcg.outs [.flush] >>= fun _ => Pure.pure b) m := by
  have h2 := Follows.bind (f' := fun b => Nlcg.note t >>= fun _ => Nlcg.outs [.flush] >>= fun _ => Pure.pure b)
    (f := fun b => Pure.pure b) h fun b => .note (.outs (.pure b))
  have he : (m >>= fun b => Pure.pure b) = m := by
    funext w
    rw [FM.bind_apply]
    cases hm : m w with
    | none => rfl
    | some q =>
      obtain ⟨r, w1⟩ := q
      cases r <;> rfl
  rwa [he] at h2

theorem cgBodyOut_follows (ops : Ops α σ ρ δ) (oe : OutEnv α σ ρ δ) (prm : NlcgParams α)
    (fuel rank i : Nat) (v : Vars α ρ δ) :
    Follows (cgBodyOut ops oe prm fuel rank i v) (cgBody ops prm fuel rank i v) := by
  unfold cgBodyOut cgBody
  refine .bind (.silent _) fun _ => .bind (setInfoOut_follows ..) fun _ => .bind (.silent _) fun _ =>
    .bind (runSearchOut_follows ..) fun r => .note (.bind (.silent _) fun pt => ?_)
  split
  · exact .ub
  · refine .get fun w => ?_
    split
    · exact (callRestartedOut_follows ops oe i pt).trail _
    · refine .outs (.bind (.silent _) fun x => ?_)
      obtain ⟨fr, slope, dir⟩ := x
      dsimp only
      refine .bind (.silent _) fun _ => ?_
      split
      · exact .note (.bind (callRestartedOut_follows ..) fun v' => .bind (.silent _) fun _ =>
          .note (.outs (.pure _)))
      · exact .note (.outs (.pure _))

theorem cgSuccessOut_follows (ops : Ops α σ ρ δ) (rank i : Nat) (v : Vars α ρ δ) :
    Follows (cgSuccessOut ops rank i v) (cgSuccess ops rank i v) := by
  unfold cgSuccessOut cgSuccess
  exact .bind (setInfoOut_follows ..) fun _ => .bind (.silent _) fun _ => .bind (.silent _) fun _ =>
    .get_only fun _ => .outs (.outs (.bind (.silent _) fun _ => .get fun _ => .pure _))

theorem cgLoopOut_follows (ops : Ops α σ ρ δ) (oe : OutEnv α σ ρ δ) (prm : NlcgParams α)
    (fuel rank : Nat) : ∀ (n i : Nat) (v : Vars α ρ δ),
    Follows (cgLoopOut ops oe prm fuel rank n i v) (cgLoop ops prm fuel rank n i v)
  | 0, _, _ => .get fun _ => .pure _
  | n + 1, i, v => by
    unfold cgLoopOut cgLoop
    refine .outs (.bind (.silent _) fun _ => ?_)
    split
    · exact cgSuccessOut_follows ..
    · refine .bind (.attempt (cgBodyOut_follows ..)) fun r => ?_
      cases r with
      | ok v' => exact cgLoopOut_follows ops oe prm fuel rank n (i + 1) v'
      | error e =>
        cases e
        case descentError => exact .outs (.get fun _ => .pure _)
        case slopeError => exact .outs (.get fun _ => .pure _)
        all_goals exact .throw _

theorem nlcgOut_follows (ops : Ops α σ ρ δ) (oe : OutEnv α σ ρ δ) (prm : NlcgParams α) (fuel rank : Nat) :
    Follows (nlcgOut ops oe prm fuel rank) (nlcg ops prm fuel rank) := by
  unfold nlcgOut nlcg
  refine .bind (.silent _) fun _ => .bind (.silent _) fun _ => ?_
  refine .fresh (.bind (.silent _) fun _ => .get_only fun _ => .outs (.bind (.silent _) fun pt => .outs
    (.get_only fun _ => .outs (.bind (.silent _) fun x => ?_))))
  obtain ⟨slope, dir⟩ := x
  exact .bind (.silent _) fun _ => cgLoopOut_follows ..

/-! ## The messages of one iteration -/

/-- a message without numbers, or a flush -/
def PlainOps (a : List (OutOp α)) : Prop := ∀ x ∈ a, x = .flush ∨ ∃ t, x = .line (.note t)

/-- a message that is not about the end of the run, or a flush -/
def Inside (a : List (OutOp α)) : Prop := ∀ x ∈ a, x = .flush ∨ ∃ l, x = .line l ∧ ¬ Spec.Verdict l

omit [Arith α] in
theorem PlainOps.inside {a : List (OutOp α)} (h : PlainOps a) : Inside a := by
  intro x hx
  rcases h x hx with h | ⟨t, h⟩
  · exact Or.inl h
  · exact Or.inr ⟨_, h, id⟩

omit [Arith α] in
theorem PlainOps.append {a b : List (OutOp α)} (h : PlainOps a) (h2 : PlainOps b) : PlainOps (a ++ b) := by
  intro x hx
  rcases List.mem_append.mp hx with hx | hx
  · exact h x hx
  · exact h2 x hx

omit [Arith α] in
theorem Inside.append {a b : List (OutOp α)} (h : Inside a) (h2 : Inside b) : Inside (a ++ b) := by
  intro x hx
  rcases List.mem_append.mp hx with hx | hx
  · exact h x hx
  · exact h2 x hx

omit [Arith α] in
theorem plain_map (l : List (Option String)) : PlainOps (l.map (outOf (α := α))) := by
  intro x hx
  obtain ⟨y, -, rfl⟩ := List.mem_map.mp hx
  cases y with
  | none => exact Or.inl rfl
  | some t => exact Or.inr ⟨t, rfl⟩

omit [Arith α] in
@[simp] theorem text_append (a b : List (OutOp α)) : Spec.text (a ++ b) = Spec.text a ++ Spec.text b := by
  induction a with
  | nil => rfl
  | cons x a ih => cases x <;> simp [Spec.text, ih]

omit [Arith α] in
theorem PlainOps.reports {a : List (OutOp α)} (h : PlainOps a) : Spec.reportsIn (Spec.text a) = [] := by
  induction a with
  | nil => rfl
  | cons x a ih =>
    have ha := ih fun y hy => h y (List.mem_cons_of_mem _ hy)
    rcases h x List.mem_cons_self with rfl | ⟨t, rfl⟩
    · exact ha
    · simpa [Spec.text, Spec.reportsIn] using ha

/-- a part of the line search: it adds plain messages -/
structure Notes (m : FM (τ × List (OutOp α)) β) : Prop where
  adds : ∀ w o r w' o', m (w, o) = some (r, (w', o')) → ∃ a, o' = o ++ a ∧ PlainOps a

omit [Arith α] in
theorem Notes.bind {m : FM (τ × List (OutOp α)) β} {f : β → FM (τ × List (OutOp α)) γ} (h : Notes m)
    (hf : ∀ b, Notes (f b)) : Notes (m >>= f) := by
  refine ⟨fun w o r w' o' hr => ?_⟩
  rcases FM.bind_inv hr with ⟨b, ⟨w1, o1⟩, h1, h2⟩ | ⟨e, h1, -⟩ | ⟨h1, -⟩ | ⟨h1, -⟩
  · obtain ⟨a, rfl, ha⟩ := h.adds _ _ _ _ _ h1
    obtain ⟨c, rfl, hc⟩ := (hf b).adds _ _ _ _ _ h2
    exact ⟨a ++ c, by simp, ha.append hc⟩
  all_goals exact h.adds _ _ _ _ _ h1

omit [Arith α] in
theorem Notes.silent (m : FM τ β) : Notes (α := α) (Nlcg.silent m) := by
  refine ⟨fun w o r w' o' hr => ⟨[], ?_, by simp [PlainOps]⟩⟩
  unfold Nlcg.silent at hr
  dsimp only at hr
  cases hm : m w with
  | none => simp [hm] at hr
  | some q =>
    simp only [hm, Option.some.injEq, Prod.mk.injEq] at hr
    simp [← hr.2.2]

omit [Arith α] in
theorem Notes.pure (b : β) : Notes (α := α) (τ := τ) (pure b) := by
  refine ⟨fun w o r w' o' hr => ⟨[], ?_, by simp [PlainOps]⟩⟩
  simp only [FM.pure_apply, Option.some.injEq, Prod.mk.injEq] at hr
  simp [← hr.2.2]

omit [Arith α] in
theorem Notes.throw (e : Exc) : Notes (α := α) (τ := τ) (β := β) (FM.throw e) := by
  refine ⟨fun w o r w' o' hr => ⟨[], ?_, by simp [PlainOps]⟩⟩
  simp only [FM.throw_apply, Option.some.injEq, Prod.mk.injEq] at hr
  simp [← hr.2.2]

omit [Arith α] in
theorem Notes.stuck : Notes (α := α) (τ := τ) (β := β) FM.stuck := by
  refine ⟨fun w o r w' o' hr => ?_⟩
  simp at hr

omit [Arith α] in
theorem Notes.outs {l : List (OutOp α)} (hl : PlainOps l) : Notes (τ := τ) (Nlcg.outs l) := by
  refine ⟨fun w o r w' o' hr => ⟨l, ?_, hl⟩⟩
  simp only [Nlcg.outs, FM.modify_apply, Option.some.injEq, Prod.mk.injEq] at hr
  exact hr.2.2.symm

omit [Arith α] in
theorem Notes.note (t : String) : Notes (α := α) (τ := τ) (Nlcg.note t) :=
  .outs (by simp [PlainOps])

omit [Arith α] in
theorem Notes.get {f : τ × List (OutOp α) → FM (τ × List (OutOp α)) β} (h : ∀ p, Notes (f p)) :
    Notes (FM.get >>= f) :=
  ⟨fun w o r w' o' hr => (h (w, o)).adds w o r w' o' hr⟩

omit [Arith α] in
theorem Notes.attempt {m : FM (τ × List (OutOp α)) β} (h : Notes m) : Notes (FM.attempt m) := by
  refine ⟨fun w o r w' o' hr => ?_⟩
  unfold FM.attempt at hr
  cases hm : m (w, o) with
  | none => simp [hm] at hr
  | some q =>
    obtain ⟨r1, w1, o1⟩ := q
    rw [hm] at hr
    cases r1 <;> simp only [Option.some.injEq, Prod.mk.injEq] at hr <;>
      obtain ⟨-, rfl, rfl⟩ := hr <;> exact h.adds _ _ _ _ _ hm

omit [Arith α] in
theorem evalGOut_notes (env : LSEnv α σ ρ) (oe : α → σ → List (Option String)) (t : α) :
    Notes (evalGOut env oe t) :=
  .get fun _ => .bind (.outs (plain_map _)) fun _ => .silent _

theorem btLoopOut_notes (env : LSEnv α σ ρ) (oe : α → σ → List (Option String)) (tau F0 : α) :
    ∀ (n : Nat) (t : α), Notes (btLoopOut env oe tau F0 n t)
  | 0, t => by
    unfold btLoopOut
    split
    · exact .stuck
    · exact .pure _
  | n + 1, t => by
    unfold btLoopOut
    split
    · refine .bind (evalGOut_notes ..) fun r => .bind (.silent _) fun Fp => .bind (.note _) fun _ => ?_
      split
      · exact .bind (.note _) fun _ => .bind (.silent _) fun _ => .pure _
      · exact .bind (.note _) fun _ => btLoopOut_notes env oe tau F0 n _
    · exact .pure _

theorem btSearchOut_notes (env : LSEnv α σ ρ) (oe : α → σ → List (Option String)) (p : LSParams α)
    (fuel : Nat) (F0 : α) : Notes (btSearchOut env oe p fuel F0) := by
  unfold btSearchOut
  split
  · exact .throw _
  · refine .bind (btLoopOut_notes ..) fun r => ?_
    cases r with
    | some r => exact .pure _
    | none =>
      refine .bind (.outs (by simp [PlainOps])) fun _ => .get fun q => ?_
      split
      · exact .throw _
      · exact .bind (.silent _) fun _ => evalGOut_notes ..

theorem qlineLoopOut_notes (env : LSEnv α σ ρ) (oe : α → σ → List (Option String)) (F0 slope : α) :
    ∀ (n : Nat) (t : α), Notes (qlineLoopOut env oe F0 slope n t)
  | 0, t => .stuck
  | n + 1, t => by
    unfold qlineLoopOut
    refine .bind (evalGOut_notes ..) fun r => .bind (.silent _) fun F1 => ?_
    dsimp only
    split
    · exact .bind (.note _) fun _ => qlineLoopOut_notes env oe F0 slope n _
    · exact .pure _

theorem qlineOut_notes (env : LSEnv α σ ρ) (oe : α → σ → List (Option String)) (p : LSParams α)
    (fuel : Nat) (slope : α) : Notes (qlineOut env oe p fuel slope) := by
  unfold qlineOut
  refine .bind (.silent _) fun F0 => .bind (qlineLoopOut_notes ..) fun t =>
    .bind (evalGOut_notes ..) fun r => .bind (.silent _) fun Fm => .bind (.note _) fun _ => ?_
  split
  · exact .bind (.note _) fun _ => .throw _
  · exact .bind (.silent _) fun _ => .pure _

theorem lineSearchOut_notes (env : LSEnv α σ ρ) (oe : α → σ → List (Option String)) (p : LSParams α)
    (fuel : Nat) (slope : α) : Notes (lineSearchOut env oe p fuel slope) := by
  unfold lineSearchOut
  split
  · exact .throw _
  · refine .bind (.note _) fun _ => .bind (.silent _) fun F0 => .bind (.attempt (qlineOut_notes ..)) fun r => ?_
    cases r with
    | ok r => exact .pure _
    | error e =>
      cases e
      case stepError => exact .bind (.note _) fun _ => btSearchOut_notes ..
      all_goals exact .throw _

/-- the reports among the messages are those of the trace, and the record is not marked converged -/
def Same (w w' : NState α σ) (a : List (OutOp α)) : Prop :=
  (∃ t, w'.trace = w.trace ++ t ∧ Spec.reportsMade t = Spec.reportsIn (Spec.text a)) ∧
  (w.info.converged = false → w'.info.converged = false)

/-- a part of an iteration; with `fl` a normal end has just flushed -/
structure Inner (fl : Bool) (m : FM (NState α σ × List (OutOp α)) β) : Prop where
  adds : ∀ w o r w' o', m (w, o) = some (r, (w', o')) → ∃ a, o' = o ++ a ∧ Inside a ∧ Same w w' a ∧
    (fl = true → ∀ b, r = .ok b → ∃ c, a = c ++ [.flush])

omit [Arith α] in
theorem Same.trans {w w1 w2 : NState α σ} {a b : List (OutOp α)} (h : Same w w1 a) (h2 : Same w1 w2 b) :
    Same w w2 (a ++ b) := by
  obtain ⟨⟨t, ht, hr⟩, hc⟩ := h
  obtain ⟨⟨t2, ht2, hr2⟩, hc2⟩ := h2
  refine ⟨⟨t ++ t2, by simp [ht2, ht], ?_⟩, fun hw => hc2 (hc hw)⟩
  simp only [Spec.reportsMade, Spec.reportsIn, List.filterMap_append, text_append] at hr hr2 ⊢
  rw [hr, hr2]

omit [Arith α] in
theorem Inner.bind {fl : Bool} {m : FM (NState α σ × List (OutOp α)) β}
    {f : β → FM (NState α σ × List (OutOp α)) γ} (h : Inner false m) (hf : ∀ b, Inner fl (f b)) :
    Inner fl (m >>= f) := by
  refine ⟨fun w o r w' o' hr => ?_⟩
  rcases FM.bind_inv hr with ⟨b, ⟨w1, o1⟩, h1, h2⟩ | ⟨e, h1, he⟩ | ⟨h1, he⟩ | ⟨h1, he⟩
  · obtain ⟨a, rfl, ha, hs, -⟩ := h.adds _ _ _ _ _ h1
    obtain ⟨c, rfl, hc, hs2, hfl⟩ := (hf b).adds _ _ _ _ _ h2
    refine ⟨a ++ c, by simp, ha.append hc, hs.trans hs2, fun h b hb => ?_⟩
    obtain ⟨d, rfl⟩ := hfl h b hb
    exact ⟨a ++ d, by simp⟩
  all_goals
    obtain ⟨a, rfl, ha, hs, -⟩ := h.adds _ _ _ _ _ h1
    exact ⟨a, rfl, ha, hs, fun _ b hb => by simp [he] at hb⟩

/-- the trace gets no report and the record is not marked converged -/
structure Calm (m : FM (NState α σ) β) : Prop where
  calm : ∀ w r w', m w = some (r, w') → (∃ t, w'.trace = w.trace ++ t ∧ Spec.reportsMade t = []) ∧
    (w.info.converged = false → w'.info.converged = false)

omit [Arith α] in
theorem Inner.silent {m : FM (NState α σ) β} (h : Calm m) : Inner (α := α) false (Nlcg.silent m) := by
  refine ⟨fun w o r w' o' hr => ⟨[], ?_⟩⟩
  unfold Nlcg.silent at hr
  dsimp only at hr
  cases hm : m w with
  | none => simp [hm] at hr
  | some q =>
    simp only [hm, Option.some.injEq, Prod.mk.injEq] at hr
    have hc := h.calm _ _ _ hm
    rw [hr.2.1] at hc
    exact ⟨by simp [← hr.2.2], by simp [Inside], hc, by simp⟩

omit [Arith α] in
theorem Same.refl_of {w : NState α σ} {a : List (OutOp α)} (h : Spec.reportsIn (Spec.text a) = []) :
    Same w w a := ⟨⟨[], by simp, by simp [h, Spec.reportsMade]⟩, id⟩

omit [Arith α] in
theorem Inner.outs {l : List (OutOp α)} (hl : PlainOps l) : Inner false (Nlcg.outs (τ := NState α σ) l) := by
  refine ⟨fun w o r w' o' hr => ⟨l, ?_, hl.inside, ?_, by simp⟩⟩
  · simp only [Nlcg.outs, FM.modify_apply, Option.some.injEq, Prod.mk.injEq] at hr
    exact hr.2.2.symm
  · simp only [Nlcg.outs, FM.modify_apply, Option.some.injEq, Prod.mk.injEq] at hr
    rw [← hr.2.1]
    exact .refl_of hl.reports

omit [Arith α] in
theorem Inner.note (t : String) : Inner false (Nlcg.note (α := α) (τ := NState α σ) t) :=
  .outs (by simp [PlainOps])

omit [Arith α] in
theorem Inner.get {fl : Bool} {f : NState α σ × List (OutOp α) → FM (NState α σ × List (OutOp α)) β}
    (h : ∀ p, Inner fl (f p)) : Inner fl (FM.get >>= f) :=
  ⟨fun w o r w' o' hr => (h (w, o)).adds w o r w' o' hr⟩

omit [Arith α] in
theorem Inner.ub {fl : Bool} : Inner (α := α) (σ := σ) (β := β) fl FM.ub := by
  refine ⟨fun w o r w' o' hr => ⟨[], ?_⟩⟩
  simp only [FM.ub_apply, Option.some.injEq, Prod.mk.injEq] at hr
  obtain ⟨rfl, rfl, rfl⟩ := hr
  exact ⟨by simp, by simp [Inside], .refl_of rfl, by simp⟩

omit [Arith α] in
/-- a flush and the end -/
theorem Inner.flushed (b : β) : Inner (α := α) (σ := σ) true (Nlcg.outs [.flush] >>= fun _ => pure b) := by
  refine ⟨fun w o r w' o' hr => ⟨[.flush], ?_⟩⟩
  simp only [FM.bind_apply, Nlcg.outs, FM.modify_apply, FM.pure_apply, Option.some.injEq,
    Prod.mk.injEq] at hr
  obtain ⟨rfl, rfl, rfl⟩ := hr
  exact ⟨rfl, by simp [Inside], .refl_of rfl, fun _ _ _ => ⟨[], rfl⟩⟩

omit [Arith α] in
theorem calm_liftOp (f : σ → Res β × σ) : Calm (α := α) (liftOp f) := by
  refine ⟨fun w r w' h => ?_⟩
  simp only [liftOp, Option.some.injEq, Prod.mk.injEq] at h
  rw [← h.2]
  exact ⟨⟨[], by simp [Spec.reportsMade]⟩, id⟩

omit [Arith α] in
theorem calm_writeJson (ops : Ops α σ ρ δ) (rank i : Nat) (slope : α) (pt : ρ) :
    Calm (writeJson ops rank i slope pt) := by
  refine ⟨fun w r w' h => ?_⟩
  simp only [writeJson, Option.some.injEq, Prod.mk.injEq] at h
  rw [← h.2]
  exact ⟨⟨[], by simp [Spec.reportsMade]⟩, id⟩

omit [Arith α] in
theorem calm_conjugate (i : Nat) (slope : α) : Calm (σ := σ) (emit (.conjugate i slope)) := by
  refine ⟨fun w r w' h => ?_⟩
  simp only [emit, FM.modify_apply, Option.some.injEq, Prod.mk.injEq] at h
  rw [← h.2]
  exact ⟨⟨_, rfl, by simp [Spec.reportsMade]⟩, id⟩

omit [Arith α] in
theorem calm_start (i : Nat) (slope : α) : Calm (σ := σ) (emit (.start i slope)) := by
  refine ⟨fun w r w' h => ?_⟩
  simp only [emit, FM.modify_apply, Option.some.injEq, Prod.mk.injEq] at h
  rw [← h.2]
  exact ⟨⟨_, rfl, by simp [Spec.reportsMade]⟩, id⟩

omit [Arith α] in
theorem calm_force : Calm (α := α) (σ := σ) (FM.modify fun w => { w with force := true }) := by
  refine ⟨fun w r w' h => ?_⟩
  simp only [FM.modify_apply, Option.some.injEq, Prod.mk.injEq] at h
  rw [← h.2]
  exact ⟨⟨[], by simp [Spec.reportsMade]⟩, id⟩

omit [Arith α] in
theorem calm_callRestarted (ops : Ops α σ ρ δ) (i : Nat) (pt : ρ) : Calm (callRestarted ops i pt) := by
  refine ⟨fun w r w' h => ?_⟩
  unfold callRestarted at h
  rw [FM.bind_apply] at h
  simp only [liftOp] at h
  cases hr : (ops.restarted pt w.s).1 with
  | ok x =>
    simp only [hr, FM.bind_apply, emit, FM.modify_apply, FM.pure_apply, Option.some.injEq,
      Prod.mk.injEq] at h
    rw [← h.2]
    exact ⟨⟨_, rfl, by simp [Spec.reportsMade]⟩, id⟩
  | throw e =>
    simp only [hr, Option.some.injEq, Prod.mk.injEq] at h
    rw [← h.2]
    exact ⟨⟨[], by simp [Spec.reportsMade]⟩, id⟩
  | ub =>
    simp only [hr, Option.some.injEq, Prod.mk.injEq] at h
    rw [← h.2]
    exact ⟨⟨[], by simp [Spec.reportsMade]⟩, id⟩
  | abort =>
    simp only [hr, Option.some.injEq, Prod.mk.injEq] at h
    rw [← h.2]
    exact ⟨⟨[], by simp [Spec.reportsMade]⟩, id⟩

theorem setInfoOut_inner (ops : Ops α σ ρ δ) (i : Nat) (slope : α) : Inner false (setInfoOut ops i slope) := by
  refine ⟨fun w o r w' o' hr => ?_⟩
  simp only [setInfoOut, FM.bind_apply, FM.get_apply, outs, FM.modify_apply, silent, setInfo,
    Option.some.injEq, Prod.mk.injEq] at hr
  obtain ⟨rfl, rfl, rfl⟩ := hr
  refine ⟨_, rfl, by simp [Inside, Spec.Verdict], ⟨⟨_, rfl, ?_⟩, fun _ => by simp [printInfo]⟩, by simp⟩
  simp [Spec.reportsMade, Spec.reportsIn, Spec.text]

omit [Arith α] in
theorem callRestartedOut_inner (ops : Ops α σ ρ δ) (oe : OutEnv α σ ρ δ) (i : Nat) (pt : ρ) :
    Inner false (callRestartedOut ops oe i pt) :=
  .get fun _ => .bind (.outs (plain_map _)) fun _ => .silent (calm_callRestarted ..)

theorem runSearchOut_inner (ops : Ops α σ ρ δ) (oe : OutEnv α σ ρ δ) (prm : NlcgParams α) (fuel i : Nat)
    (v : Vars α ρ δ) : Inner false (runSearchOut ops oe prm fuel i v) := by
  refine ⟨fun w o r w' o' hr => ?_⟩
  have h := (lineSearchOut_notes { G := ops.geo v.pt v.dir, getF := ops.getF } (oe.geo v.pt v.dir)
    { tTrial := lit (2 / 10), tau := prm.tau } fuel v.slope).adds
    { s := w.s, forceRestart := w.force, evals := [] } o
  unfold runSearchOut at hr
  dsimp only at hr
  generalize lineSearchOut (α := α) _ _ _ _ _ _ = q at h hr
  cases q with
  | none => simp at hr
  | some q =>
    obtain ⟨r1, w1, o1⟩ := q
    obtain ⟨a, rfl, ha⟩ := h _ _ _ rfl
    have hrep := ha.reports
    cases r1 <;> simp only [Option.some.injEq, Prod.mk.injEq] at hr <;> obtain ⟨rfl, rfl, rfl⟩ := hr
    · exact ⟨a, rfl, ha.inside, ⟨⟨_, rfl, by simp [hrep, Spec.reportsMade]⟩, id⟩, by simp⟩
    · exact ⟨a, rfl, ha.inside, ⟨⟨_, rfl, by simp [hrep, Spec.reportsMade]⟩, id⟩, by simp⟩
    · exact ⟨a, rfl, ha.inside, ⟨⟨[], by simp, by simp [hrep, Spec.reportsMade]⟩, id⟩, by simp⟩
    · exact ⟨a, rfl, ha.inside, ⟨⟨[], by simp, by simp [hrep, Spec.reportsMade]⟩, id⟩, by simp⟩

theorem cgBodyOut_inner (ops : Ops α σ ρ δ) (oe : OutEnv α σ ρ δ) (prm : NlcgParams α)
    (fuel rank i : Nat) (v : Vars α ρ δ) : Inner true (cgBodyOut ops oe prm fuel rank i v) := by
  unfold cgBodyOut
  refine .bind (.silent (calm_writeJson ..)) fun _ => .bind (setInfoOut_inner ..) fun _ =>
    .bind (.silent (calm_liftOp _)) fun _ => .bind (runSearchOut_inner ..) fun r => .bind (.note _) fun _ =>
    .bind (.silent (calm_liftOp _)) fun pt => ?_
  split
  · exact .ub
  · refine .get fun w => ?_
    split
    · exact .bind (callRestartedOut_inner ..) fun v' => .bind (.note _) fun _ => .flushed _
    · refine .bind (.outs (plain_map _)) fun _ => .bind (.silent (calm_liftOp _)) fun x => ?_
      obtain ⟨fr, slope, dir⟩ := x
      dsimp only
      refine .bind (.silent (calm_conjugate ..)) fun _ => ?_
      split
      · exact .bind (.note _) fun _ => .bind (callRestartedOut_inner ..) fun v' =>
          .bind (.silent calm_force) fun _ => .bind (.note _) fun _ => .flushed _
      · exact .bind (.note _) fun _ => .flushed _

/-! ## The messages of a run -/

/-- the operations of the loop from iteration `i` on -/
inductive LoopOut : Nat → Res (Info α) → List (OutOp α) → Prop
  | limit {i info} : info.converged = false → LoopOut i (.ok info) []
  | success {i info c F S} : Inside c → info.converged = true →
      LoopOut i (.ok info) (.iteration i :: (c ++ [.line (.success F S), .flush]))
  | noDescent {i info c} : Inside c → info.converged = false →
      LoopOut i (.ok info) (.iteration i :: (c ++ [.line .noDescent]))
  | badSlope {i info c} : Inside c → info.converged = false →
      LoopOut i (.ok info) (.iteration i :: (c ++ [.line .badSlope]))
  | died {i r c} : Inside c → (∀ info, r ≠ .ok info) → LoopOut i r (.iteration i :: c)
  | step {i r c a} : Inside c → LoopOut (i + 1) r a → LoopOut i r (.iteration i :: (c ++ .flush :: a))

omit [Arith α] in
theorem Same.nil_cons {w w' : NState α σ} {i : Nat} {a : List (OutOp α)} (h : Same w w' a) :
    Same w w' (.iteration i :: a) := h

theorem cgSuccessOut_adds (ops : Ops α σ ρ δ) (rank i : Nat) (v : Vars α ρ δ) {w w' : NState α σ}
    {o o' : List (OutOp α)} {r : Res (Info α)}
    (h : cgSuccessOut ops rank i v (w, o) = some (r, (w', o'))) :
    ∃ c, Inside c ∧
      ((∃ info F S, r = .ok info ∧ info.converged = true ∧ o' = o ++ (c ++ [.line (.success F S), .flush])) ∨
        ((∀ info, r ≠ .ok info) ∧ o' = o ++ c)) ∧
      (∃ t, w'.trace = w.trace ++ t ∧ Spec.reportsMade t = Spec.reportsIn (Spec.text c)) := by
  have hA : Inner false (setInfoOut ops i v.slope >>= fun _ =>
      silent (writeJson ops rank i v.slope v.pt) >>= fun _ => silent (liftOp ops.hostPrint)) :=
    .bind (setInfoOut_inner ..) fun _ => .bind (.silent (calm_writeJson ..)) fun _ =>
      .silent (calm_liftOp _)
  have he : cgSuccessOut ops rank i v (w, o) = ((setInfoOut ops i v.slope >>= fun _ =>
      silent (writeJson ops rank i v.slope v.pt) >>= fun _ => silent (liftOp ops.hostPrint)) >>= fun _ =>
      (FM.get >>= fun p : NState α σ × List (OutOp α) =>
        outs [.line (.success (ops.getF p.1.s) (ops.getS p.1.s))] >>= fun _ => outs [.flush] >>= fun _ =>
        silent (FM.modify fun w => { w with info := { w.info with converged := true } }) >>= fun _ =>
        FM.get >>= fun w => pure w.1.info)) (w, o) := by
    unfold cgSuccessOut
    simp only [FM.bind_apply]
    cases setInfoOut ops i v.slope (w, o) with
    | none => rfl
    | some q =>
      obtain ⟨r1, w1, o1⟩ := q
      cases r1 with
      | ok b =>
        dsimp only
        cases silent (writeJson ops rank i v.slope v.pt) (w1, o1) with
        | none => rfl
        | some q =>
          obtain ⟨r2, w2, o2⟩ := q
          cases r2 <;> rfl
      | throw e => rfl
      | ub => rfl
      | abort => rfl
  rw [he] at h
  rcases FM.bind_inv h with ⟨b, ⟨w1, o1⟩, h1, h2⟩ | ⟨e, h1, hr⟩ | ⟨h1, hr⟩ | ⟨h1, hr⟩
  · obtain ⟨c, rfl, hc, ⟨⟨t, ht, hrep⟩, -⟩, -⟩ := hA.adds _ _ _ _ _ h1
    simp only [FM.bind_apply, FM.get_apply, outs, FM.modify_apply, silent, FM.pure_apply,
      Option.some.injEq, Prod.mk.injEq] at h2
    obtain ⟨rfl, rfl, rfl⟩ := h2
    exact ⟨c, hc, Or.inl ⟨_, ops.getF w1.s, ops.getS w1.s, rfl, rfl, by simp⟩, t, ht, hrep⟩
  all_goals
    obtain ⟨c, rfl, hc, ⟨⟨t, ht, hrep⟩, -⟩, -⟩ := hA.adds _ _ _ _ _ h1
    exact ⟨c, hc, Or.inr ⟨by simp [hr], rfl⟩, t, ht, hrep⟩

omit [Arith α] in
theorem attempt_inv {m : FM τ β} {w w' : τ} {x : Res (Except Exc β)} (h : FM.attempt m w = some (x, w')) :
    ∃ r, m w = some (r, w') ∧ ((∃ b, r = .ok b ∧ x = .ok (.ok b)) ∨
      (∃ e, r = .throw e ∧ x = .ok (.error e)) ∨ (r = .ub ∧ x = .ub) ∨ (r = .abort ∧ x = .abort)) := by
  unfold FM.attempt at h
  cases hm : m w with
  | none => simp [hm] at h
  | some q =>
    obtain ⟨r, w1⟩ := q
    rw [hm] at h
    cases r <;> simp only [Option.some.injEq, Prod.mk.injEq] at h <;> obtain ⟨rfl, rfl⟩ := h <;> simp

theorem cgLoopOut_adds (ops : Ops α σ ρ δ) (oe : OutEnv α σ ρ δ) (prm : NlcgParams α) (fuel rank : Nat) :
    ∀ (n i : Nat) (v : Vars α ρ δ) {w w' : NState α σ} {o o' : List (OutOp α)} {r : Res (Info α)},
    cgLoopOut ops oe prm fuel rank n i v (w, o) = some (r, (w', o')) → w.info.converged = false →
    ∃ a, o' = o ++ a ∧ LoopOut i r a ∧
      ∃ t, w'.trace = w.trace ++ t ∧ Spec.reportsMade t = Spec.reportsIn (Spec.text a)
  | 0, i, v, w, w', o, o', r, h, hw => by
    simp only [cgLoopOut, FM.bind_apply, FM.get_apply, FM.pure_apply, Option.some.injEq, Prod.mk.injEq] at h
    obtain ⟨rfl, rfl, rfl⟩ := h
    exact ⟨[], by simp, .limit hw, [], by simp, rfl⟩
  | n + 1, i, v, w, w', o, o', r, h, hw => by
    unfold cgLoopOut at h
    have hst : ∀ (f : Unit → FM (NState α σ × List (OutOp α)) (Info α)),
        (outs [.iteration i] >>= fun _ => silent (emit (.start i v.slope)) >>= f) (w, o) =
        f () ({ w with trace := w.trace ++ [.start i v.slope] }, o ++ [.iteration i]) := fun f => rfl
    rw [hst] at h
    split at h
    · obtain ⟨c, hc, hr, t, ht, hrep⟩ := cgSuccessOut_adds ops rank i v h
      have htr : ∃ t, w'.trace = w.trace ++ t ∧ Spec.reportsMade t = Spec.reportsIn (Spec.text c) :=
        ⟨.start i v.slope :: t, by simp [ht], by simpa [Spec.reportsMade] using hrep⟩
      obtain ⟨t, ht, hrep⟩ := htr
      rcases hr with ⟨info, F, S, rfl, hi, rfl⟩ | ⟨hr, rfl⟩
      · refine ⟨_, by simp, .success hc hi (F := F) (S := S), t, ht, ?_⟩
        rw [hrep]
        simp [Spec.text, Spec.reportsIn]
      · exact ⟨_, by simp, .died hc hr, t, ht, hrep⟩
    · have hB := (cgBodyOut_inner ops oe prm fuel rank i v).adds
      have key : ∀ {x : Res (Vars α ρ δ)} {w1 : NState α σ} {o1 : List (OutOp α)},
          cgBodyOut ops oe prm fuel rank i v
            ({ w with trace := w.trace ++ [.start i v.slope] }, o ++ [.iteration i]) = some (x, (w1, o1)) →
          ∃ c t, o1 = o ++ .iteration i :: c ∧ Inside c ∧ w1.info.converged = false ∧
            w1.trace = w.trace ++ t ∧ Spec.reportsMade t = Spec.reportsIn (Spec.text c) ∧
            ∀ b, x = .ok b → ∃ d, c = d ++ [.flush] := by
        intro x w1 o1 h1
        obtain ⟨c, rfl, hc, ⟨⟨t, ht, hrep⟩, hi⟩, hfl⟩ := hB _ _ _ _ _ h1
        exact ⟨c, .start i v.slope :: t, by simp, hc, hi hw, by simp [ht],
          by simpa [Spec.reportsMade] using hrep, hfl rfl⟩
      rcases FM.bind_inv h with ⟨b, ⟨w1, o1⟩, h1, h2⟩ | ⟨e, h1, hr⟩ | ⟨h1, hr⟩ | ⟨h1, hr⟩
      · obtain ⟨x, hx, hcase⟩ := attempt_inv h1
        obtain ⟨c, t, rfl, hc, hi, ht, hrep, hfl⟩ := key hx
        rcases hcase with ⟨v', rfl, hb⟩ | ⟨e, rfl, hb⟩ | ⟨-, hb⟩ | ⟨-, hb⟩
        · obtain rfl := Res.ok.inj hb
          obtain ⟨d, rfl⟩ := hfl _ rfl
          obtain ⟨a, rfl, ha, t2, ht2, hrep2⟩ := cgLoopOut_adds ops oe prm fuel rank n (i + 1) v' h2 hi
          refine ⟨.iteration i :: (d ++ .flush :: a), by simp, .step (fun y hy => hc y (by simp [hy])) ha,
            t ++ t2, by simp [ht2, ht], ?_⟩
          simp only [Spec.reportsMade, Spec.reportsIn, List.filterMap_append, text_append,
            Spec.text] at hrep hrep2 ⊢
          rw [hrep, hrep2]
          simp
        · obtain rfl := Res.ok.inj hb
          by_cases hd : e = .descentError
          · subst hd
            simp only [FM.bind_apply, FM.get_apply, outs, FM.modify_apply, FM.pure_apply,
              Option.some.injEq, Prod.mk.injEq] at h2
            obtain ⟨rfl, rfl, rfl⟩ := h2
            refine ⟨_, by simp, .noDescent hc hi, t, ht, ?_⟩
            rw [hrep]
            simp [Spec.text, Spec.reportsIn]
          · by_cases hs : e = .slopeError
            · subst hs
              simp only [FM.bind_apply, FM.get_apply, outs, FM.modify_apply, FM.pure_apply,
                Option.some.injEq, Prod.mk.injEq] at h2
              obtain ⟨rfl, rfl, rfl⟩ := h2
              refine ⟨_, by simp, .badSlope hc hi, t, ht, ?_⟩
              rw [hrep]
              simp [Spec.text, Spec.reportsIn]
            · have he : ∃ e', r = .throw e' ∧ w' = w1 ∧ o' = o ++ .iteration i :: c := by
                cases e <;> simp at hd hs <;>
                  simp only [FM.throw_apply, Option.some.injEq, Prod.mk.injEq] at h2 <;>
                  obtain ⟨rfl, rfl, rfl⟩ := h2 <;> exact ⟨_, rfl, rfl, rfl⟩
              obtain ⟨e', rfl, rfl, rfl⟩ := he
              exact ⟨_, rfl, .died hc (by simp), t, ht, hrep⟩
        · simp at hb
        · simp at hb
      · obtain ⟨x, hx, hcase⟩ := attempt_inv h1
        simp at hcase
      · obtain ⟨x, hx, hcase⟩ := attempt_inv h1
        obtain ⟨c, t, rfl, hc, hi, ht, hrep, hfl⟩ := key hx
        exact ⟨_, rfl, .died hc (by simp [hr]), t, ht, hrep⟩
      · obtain ⟨x, hx, hcase⟩ := attempt_inv h1
        obtain ⟨c, t, rfl, hc, hi, ht, hrep, hfl⟩ := key hx
        exact ⟨_, rfl, .died hc (by simp [hr]), t, ht, hrep⟩

/-- the operations of a run that finds no file: messages before the loop, then the loop unless the run has
ended before -/
theorem nlcgOut_adds (ops : Ops α σ ρ δ) (oe : OutEnv α σ ρ δ) (prm : NlcgParams α) (fuel rank : Nat)
    {w w' : NState α σ} {o : List (OutOp α)} {r : Res (Info α)}
    (h : nlcgOut ops oe prm fuel rank (w, []) = some (r, (w', o))) :
    ∃ c a, o = c ++ a ∧ Inside c ∧ (LoopOut 0 r a ∨ (a = [] ∧ ∀ info, r ≠ .ok info)) ∧
      Spec.reportsMade w'.trace = Spec.reportsIn (Spec.text o) := by
  unfold nlcgOut at h
  have h0 : ∀ (f : Unit → FM (NState α σ × List (OutOp α)) (Info α)),
      (silent (FM.modify fun w => { w with info := { vals := none, converged := false }, trace := [] }) >>=
        f) (w, []) = f () ({ w with info := { vals := none, converged := false }, trace := [] }, []) :=
    fun f => rfl
  rw [h0] at h
  have hinit : ∀ {w1 : NState α σ}, w1.trace = [] → w1.info.converged = false → ∀ {p : List (OutOp α)}, Inside p →
    Spec.reportsIn (Spec.text p) = [] → ∀ (pt : ρ) (sl : α) (d : δ),
    cgLoopOut ops oe prm fuel rank prm.maxiter.toNat 0 { pt := pt, dir := d, slope := sl, fr := sl } (w1, p) =
      some (r, (w', o)) → ∃ c a, o = c ++ a ∧ Inside c ∧ (LoopOut 0 r a ∨ (a = [] ∧ ∀ info, r ≠ .ok info)) ∧
      Spec.reportsMade w'.trace = Spec.reportsIn (Spec.text o) := by
    intro w1 ht hi p hp hrp pt sl d hl
    obtain ⟨a, rfl, ha, t, htr, hrep⟩ := cgLoopOut_adds ops oe prm fuel rank _ _ _ hl hi
    refine ⟨p, a, rfl, hp, Or.inl ha, ?_⟩
    rw [htr, ht, List.nil_append, hrep, text_append]
    simp only [Spec.reportsIn, List.filterMap_append] at hrp ⊢
    rw [hrp, List.nil_append]
  have hfail : ∀ {w1 : NState α σ}, w1.trace = [] → ∀ {p : List (OutOp α)}, Inside p →
      Spec.reportsIn (Spec.text p) = [] → (∀ info, r ≠ .ok info) → w' = w1 → o = p →
      ∃ c a, o = c ++ a ∧ Inside c ∧ (LoopOut 0 r a ∨ (a = [] ∧ ∀ info, r ≠ .ok info)) ∧
      Spec.reportsMade w'.trace = Spec.reportsIn (Spec.text o) := by
    rintro w1 ht p hp hrp hr rfl rfl
    exact ⟨o, [], by simp, hp, Or.inr ⟨rfl, hr⟩, by rw [ht, hrp]; rfl⟩
  generalize hwa : ({ w with info := { vals := none, converged := false }, trace := [] } : NState α σ) = wa at h
  have hat : wa.trace = [] := by rw [← hwa]
  have hai : wa.info.converged = false := by rw [← hwa]
  clear hwa h0
  simp only [FM.bind_apply, FM.get_apply, outs, FM.modify_apply, silent, liftOp] at h
  cases hc : (ops.construct wa.s).1 with
  | ok u =>
    rw [hc] at h
    dsimp only at h
    have hin : Inside (List.map (outOf (α := α)) (oe.setup (ops.construct wa.s).2)) := (plain_map _).inside
    have hpl := plain_map (α := α) (oe.setup (ops.construct wa.s).2)
    cases hs : (ops.setup (ops.construct wa.s).2).1 with
    | ok pt =>
      rw [hs] at h
      dsimp only at h
      have hpl2 := plain_map (α := α) (oe.restarted pt (ops.setup (ops.construct wa.s).2).2)
      have hin2 : Inside ([] ++ List.map outOf (oe.setup (ops.construct wa.s).2) ++ [.line (.header (α := α))] ++
          List.map outOf (oe.restarted pt (ops.setup (ops.construct wa.s).2).2)) :=
        ((Inside.append (by simp [Inside]) hin).append (by simp [Inside, Spec.Verdict])).append hpl2.inside
      have hrp : Spec.reportsIn (Spec.text ([] ++ List.map outOf (oe.setup (ops.construct wa.s).2) ++
          [.line (.header (α := α))] ++
          List.map outOf (oe.restarted pt (ops.setup (ops.construct wa.s).2).2))) = [] := by
        have h1 := hpl.reports
        have h2 := hpl2.reports
        simp only [Spec.reportsIn, text_append, List.filterMap_append] at h1 h2 ⊢
        rw [h1, h2]
        rfl
      cases hrs : (ops.restarted pt (ops.setup (ops.construct wa.s).2).2).1 with
      | ok x =>
        rw [hrs] at h
        dsimp only at h
        exact hinit (by exact hat) (by exact hai) hin2 hrp _ _ _ h
      | throw e =>
        rw [hrs] at h
        simp only [Option.some.injEq, Prod.mk.injEq] at h
        obtain ⟨rfl, rfl, rfl⟩ := h
        exact hfail (by exact hat) hin2 hrp (by simp) rfl rfl
      | ub =>
        rw [hrs] at h
        simp only [Option.some.injEq, Prod.mk.injEq] at h
        obtain ⟨rfl, rfl, rfl⟩ := h
        exact hfail (by exact hat) hin2 hrp (by simp) rfl rfl
      | abort =>
        rw [hrs] at h
        simp only [Option.some.injEq, Prod.mk.injEq] at h
        obtain ⟨rfl, rfl, rfl⟩ := h
        exact hfail (by exact hat) hin2 hrp (by simp) rfl rfl
    | throw e =>
      rw [hs] at h
      simp only [Option.some.injEq, Prod.mk.injEq] at h
      obtain ⟨rfl, rfl, rfl⟩ := h
      exact hfail (by exact hat) (by simpa using hin) (by simpa using hpl.reports) (by simp) rfl rfl
    | ub =>
      rw [hs] at h
      simp only [Option.some.injEq, Prod.mk.injEq] at h
      obtain ⟨rfl, rfl, rfl⟩ := h
      exact hfail (by exact hat) (by simpa using hin) (by simpa using hpl.reports) (by simp) rfl rfl
    | abort =>
      rw [hs] at h
      simp only [Option.some.injEq, Prod.mk.injEq] at h
      obtain ⟨rfl, rfl, rfl⟩ := h
      exact hfail (by exact hat) (by simpa using hin) (by simpa using hpl.reports) (by simp) rfl rfl
  | throw e =>
    rw [hc] at h
    simp only [Option.some.injEq, Prod.mk.injEq] at h
    obtain ⟨rfl, rfl, rfl⟩ := h
    exact hfail (by exact hat) (by simp [Inside]) rfl (by simp) rfl rfl
  | ub =>
    rw [hc] at h
    simp only [Option.some.injEq, Prod.mk.injEq] at h
    obtain ⟨rfl, rfl, rfl⟩ := h
    exact hfail (by exact hat) (by simp [Inside]) rfl (by simp) rfl rfl
  | abort =>
    rw [hc] at h
    simp only [Option.some.injEq, Prod.mk.injEq] at h
    obtain ⟨rfl, rfl, rfl⟩ := h
    exact hfail (by exact hat) (by simp [Inside]) rfl (by simp) rfl rfl

/-! ## What is on disk -/

omit [Arith α] in
/-- where an iteration after the first begins, the stream has just been flushed -/
theorem LoopOut.marker {i : Nat} {r : Res (Info α)} {a : List (OutOp α)} (h : LoopOut i r a) :
    ∀ {p q : List (OutOp α)} {j : Nat}, a = p ++ .iteration j :: q →
      (j = i ∧ p = []) ∨ (i < j ∧ ∃ c, p = c ++ [.flush]) := by
  have main : ∀ {i : Nat} {c p q : List (OutOp α)} {j : Nat}, (∀ k, OutOp.iteration k ∉ c) →
      (.iteration i :: c : List (OutOp α)) = p ++ .iteration j :: q → j = i ∧ p = [] := by
    intro i c p q j hc he
    cases p with
    | nil => simp only [List.nil_append, List.cons.injEq, OutOp.iteration.injEq] at he; exact ⟨he.1.symm, rfl⟩
    | cons x p =>
      simp only [List.cons_append, List.cons.injEq] at he
      exact absurd (he.2 ▸ by simp : OutOp.iteration j ∈ c) (hc j)
  have hno : ∀ {c : List (OutOp α)}, Inside c → ∀ k, OutOp.iteration k ∉ c := by
    intro c hc k hk
    rcases hc _ hk with h | ⟨l, h, -⟩ <;> cases h
  induction h with
  | limit _ => intro p q j he; simp at he
  | success hc _ | noDescent hc _ | badSlope hc _ =>
    intro p q j he
    exact Or.inl (main (fun k hk => by simp at hk; exact hno hc k hk) he)
  | died hc _ =>
    intro p q j he
    exact Or.inl (main (hno hc) he)
  | @step i r c a hc ha ih =>
    intro p q j he
    cases p with
    | nil => simp only [List.nil_append, List.cons.injEq, OutOp.iteration.injEq] at he; exact Or.inl ⟨he.1.symm, rfl⟩
    | cons x p =>
      simp only [List.cons_append, List.cons.injEq] at he
      obtain ⟨rfl, he⟩ := he
      rw [show c ++ .flush :: a = (c ++ [.flush]) ++ a by simp] at he
      rcases List.append_eq_append_iff.mp he with ⟨d, rfl, h2⟩ | ⟨d, h1, h2⟩
      · right
        rcases ih h2 with ⟨rfl, rfl⟩ | ⟨hj, e, rfl⟩
        · exact ⟨by omega, .iteration i :: c, by simp⟩
        · exact ⟨by omega, .iteration i :: (c ++ [.flush]) ++ e, by simp⟩
      · cases d with
        | nil =>
          simp only [List.nil_append] at h2
          rcases ih (p := []) (q := q) (j := j) (by simpa using h2.symm) with ⟨rfl, -⟩ | ⟨-, e, he⟩
          · right
            exact ⟨by omega, .iteration i :: c, by simpa using h1.symm⟩
          · simp at he
        | cons y d =>
          simp only [List.cons_append, List.cons.injEq] at h2
          obtain ⟨rfl, -⟩ := h2
          have : OutOp.iteration j ∈ c ++ [OutOp.flush] := by rw [h1]; simp
          simp at this
          exact absurd this (hno hc j)

omit [Arith α] in
/-- after a flush at the end everything is on disk -/
theorem onDisk_flushed {a : List (OutOp α)} {d : List (OutLine α)} (h : Spec.OnDisk (a ++ [.flush]) d) :
    d = Spec.text (a ++ [.flush]) := by
  have h1 := h.1
  have h2 := h.2 a [] rfl
  have he : Spec.text (a ++ [.flush]) = Spec.text a := by simp [Spec.text]
  rw [he] at h1 ⊢
  exact h1.eq_of_length (le_antisymm h1.length_le h2.length_le)

omit [Arith α] in
/-- a message after the last flush may be missing -/
theorem onDisk_without (a : List (OutOp α)) (l : OutLine α) :
    Spec.OnDisk (a ++ [.line l]) (Spec.text a) := by
  refine ⟨by simp, fun p q he => ?_⟩
  rcases List.append_eq_append_iff.mp he with ⟨d, rfl, h2⟩ | ⟨d, h1, h2⟩
  · cases d with
    | nil => simp at h2
    | cons y d => simp at h2
  · cases d with
    | nil => simp at h2
    | cons y d => rw [h1]; simp

omit [Arith α] in
theorem Inside.no_verdict {a : List (OutOp α)} (h : Inside a) : ∀ l ∈ Spec.text a, ¬ Spec.Verdict l := by
  induction a with
  | nil => simp [Spec.text]
  | cons x a ih =>
    have ha := ih fun y hy => h y (List.mem_cons_of_mem _ hy)
    rcases h x List.mem_cons_self with rfl | ⟨l, rfl, hl⟩
    · exact ha
    · intro m hm
      simp only [Spec.text, List.mem_cons] at hm
      rcases hm with rfl | hm
      · exact hl
      · exact ha m hm

omit [Arith α] in
/-- the ends of a run that returns -/
theorem LoopOut.ends {i : Nat} {info : Info α} {r : Res (Info α)} {a : List (OutOp α)} (h : LoopOut i r a)
    (hr : r = .ok info) :
    (info.converged = true ∧ ∃ c F S, a = c ++ [.line (.success F S), .flush] ∧
      ∀ l ∈ Spec.text c, ¬ Spec.Verdict l) ∨
    (info.converged = false ∧ ∃ c l, a = c ++ [.line l] ∧ (l = .noDescent ∨ l = .badSlope) ∧
      ∀ l ∈ Spec.text c, ¬ Spec.Verdict l) ∨
    (info.converged = false ∧ (a = [] ∨ ∃ c, a = c ++ [.flush]) ∧ ∀ l ∈ Spec.text a, ¬ Spec.Verdict l) := by
  induction h with
  | limit hc =>
    obtain rfl := Res.ok.inj hr
    exact Or.inr (Or.inr ⟨hc, Or.inl rfl, by simp [Spec.text]⟩)
  | @success i info' c F S hin hc =>
    obtain rfl := Res.ok.inj hr
    exact Or.inl ⟨hc, .iteration i :: c, F, S, rfl, hin.no_verdict⟩
  | @noDescent i info' c hin hc =>
    obtain rfl := Res.ok.inj hr
    exact Or.inr (Or.inl ⟨hc, .iteration i :: c, _, rfl, Or.inl rfl, hin.no_verdict⟩)
  | @badSlope i info' c hin hc =>
    obtain rfl := Res.ok.inj hr
    exact Or.inr (Or.inl ⟨hc, .iteration i :: c, _, rfl, Or.inr rfl, hin.no_verdict⟩)
  | died _ hne => exact absurd hr (hne _)
  | @step i r c a hin ha ih =>
    have hv := hin.no_verdict
    have hv2 : ∀ {e : List (OutOp α)}, (∀ l ∈ Spec.text e, ¬ Spec.Verdict l) →
        ∀ l ∈ Spec.text (.iteration i :: (c ++ .flush :: e)), ¬ Spec.Verdict l := by
      intro e he l hl
      simp only [Spec.text, text_append, List.mem_append] at hl
      rcases hl with hl | hl
      · exact hv l hl
      · exact he l hl
    rcases ih hr with ⟨hc, e, F, S, rfl, he⟩ | ⟨hc, e, l, rfl, hl, he⟩ | ⟨hc, hE, he⟩
    · exact Or.inl ⟨hc, .iteration i :: (c ++ .flush :: e), F, S, by simp, hv2 he⟩
    · exact Or.inr (Or.inl ⟨hc, .iteration i :: (c ++ .flush :: e), l, by simp, hl, hv2 he⟩)
    · refine Or.inr (Or.inr ⟨hc, Or.inr ?_, hv2 he⟩)
      rcases hE with rfl | ⟨e, rfl⟩
      · exact ⟨.iteration i :: c, by simp⟩
      · exact ⟨.iteration i :: (c ++ .flush :: e), by simp⟩

end Nlcg
