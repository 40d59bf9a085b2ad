import Verif.Spec.CutShort
import Verif.Proofs.DriverInv

/-! A program that may be cut off by a foreign exception, beside one that goes on. -/

namespace Nlcg
open Arith Spec

variable {τ τ' β γ : Type}

/-- `R`: the two programs are at the same place; `X`: the first one was cut off and the second one is further;
`le`: what the second one does as it goes on; `file`: whether the log files are compared -/
structure CutWorld (τ τ' : Type) where
  file : Prop
  R : τ → τ' → Prop
  X : τ → τ' → Prop
  le : τ' → τ' → Prop
  refl : ∀ s, le s s
  trans : ∀ s t u, le s t → le t u → le s u
  mono : ∀ {s t u}, X s t → le t u → X s u

/-- every end of the program is reached by growth -/
def GrowsBy (le : τ → τ → Prop) (m : FM τ β) : Prop := ∀ s z, m s = some z → le s z.2

/-- both are at the same place with the same result, or the first one was cut off -/
inductive CutOut (W : CutWorld τ τ') : Option (Res β × τ) → Option (Res β × τ') → Prop
  | none : CutOut W none none
  | same {o s s'} : W.R s s' → CutOut W (some (o, s)) (some (o, s'))
  | cut {s y} : (∀ z, y = some z → W.X s z.2) → CutOut W (some (.throw .runtimeError, s)) y

/-- the same for a single operation -/
inductive CutOp (W : CutWorld τ τ') : Res β × τ → Res β × τ' → Prop
  | same {o s s'} : W.R s s' → CutOp W (o, s) (o, s')
  | cut {s y} : W.X s y.2 → CutOp W (.throw .runtimeError, s) y

section grows
variable {le : τ → τ → Prop} (refl : ∀ s, le s s) (trans : ∀ s t u, le s t → le t u → le s u)

include trans in
theorem GrowsBy.bind {m : FM τ β} {f : β → FM τ γ} (h : GrowsBy le m) (hf : ∀ r, GrowsBy le (f r)) :
    GrowsBy le (m >>= f) := by
  intro s z hz
  rw [FM.bind_apply] at hz
  have hm := h s
  generalize m s = q at hm hz
  match q with
  | none => simp at hz
  | some (.ok r, t) => exact trans _ _ _ (hm _ rfl) (hf r t z hz)
  | some (.throw e, t) =>
    simp only [Option.some.injEq] at hz
    subst hz
    exact hm _ rfl
  | some (.ub, t) =>
    simp only [Option.some.injEq] at hz
    subst hz
    exact hm _ rfl
  | some (.abort, t) =>
    simp only [Option.some.injEq] at hz
    subst hz
    exact hm _ rfl

include refl in
theorem GrowsBy.still {m : FM τ β} (h : ∀ s z, m s = some z → z.2 = s) : GrowsBy le m :=
  fun s z hz => by rw [h s z hz]; exact refl s

theorem GrowsBy.attempt {m : FM τ β} (h : GrowsBy le m) : GrowsBy le (FM.attempt m) := by
  intro s z hz
  have hm := h s
  rw [FM.attempt] at hz
  generalize m s = q at hm hz
  match q with
  | none => simp at hz
  | some (.ok r, t) =>
    simp only [Option.some.injEq] at hz
    subst hz
    exact hm _ rfl
  | some (.throw e, t) =>
    simp only [Option.some.injEq] at hz
    subst hz
    exact hm _ rfl
  | some (.ub, t) =>
    simp only [Option.some.injEq] at hz
    subst hz
    exact hm _ rfl
  | some (.abort, t) =>
    simp only [Option.some.injEq] at hz
    subst hz
    exact hm _ rfl

end grows

section cut
variable {W : CutWorld τ τ'} {s : τ} {s' : τ'}

theorem CutOut.bind {m : FM τ β} {m' : FM τ' β} {f : β → FM τ γ} {f' : β → FM τ' γ}
    (h : CutOut W (m s) (m' s')) (hf : ∀ r t t', W.R t t' → CutOut W (f r t) (f' r t'))
    (hg : ∀ r, GrowsBy W.le (f' r)) : CutOut W ((m >>= f) s) ((m' >>= f') s') := by
  rw [FM.bind_apply, FM.bind_apply]
  generalize m s = x at h
  generalize m' s' = y at h
  cases h with
  | none => exact .none
  | same hR =>
    rename_i o t t'
    cases o with
    | ok r => exact hf r t t' hR
    | throw e => exact .same hR
    | ub => exact .same hR
    | abort => exact .same hR
  | cut hx =>
    refine .cut fun z hz => ?_
    match y, hx, hz with
    | some (.ok r, t'), hx, hz => exact W.mono (hx _ rfl) (hg r t' z hz)
    | some (.throw e, t'), hx, hz =>
      simp only [Option.some.injEq] at hz; subst hz; exact hx _ rfl
    | some (.ub, t'), hx, hz => simp only [Option.some.injEq] at hz; subst hz; exact hx _ rfl
    | some (.abort, t'), hx, hz => simp only [Option.some.injEq] at hz; subst hz; exact hx _ rfl

/-- the same behind a `catch` that lets the exception pass -/
theorem CutOut.bind_attempt {m : FM τ β} {m' : FM τ' β} {f : Except Exc β → FM τ γ} {f' : Except Exc β → FM τ' γ}
    (h : CutOut W (m s) (m' s')) (hf : ∀ r t t', W.R t t' → CutOut W (f r t) (f' r t'))
    (hg : ∀ r, GrowsBy W.le (f' r)) (hp : f (.error .runtimeError) = FM.throw .runtimeError) :
    CutOut W ((FM.attempt m >>= f) s) ((FM.attempt m' >>= f') s') := by
  rw [FM.bind_apply, FM.bind_apply, FM.attempt, FM.attempt]
  generalize m s = x at h
  generalize m' s' = y at h
  cases h with
  | none => exact .none
  | same hR =>
    rename_i o t t'
    cases o with
    | ok r => exact hf _ t t' hR
    | throw e => exact hf _ t t' hR
    | ub => exact .same hR
    | abort => exact .same hR
  | cut hx =>
    simp only
    rw [hp, FM.throw_apply]
    refine .cut fun z hz => ?_
    match y, hx, hz with
    | some (.ok r, t'), hx, hz => exact W.mono (hx _ rfl) (hg _ t' z hz)
    | some (.throw e, t'), hx, hz => exact W.mono (hx _ rfl) (hg _ t' z hz)
    | some (.ub, t'), hx, hz => simp only [Option.some.injEq] at hz; subst hz; exact hx _ rfl
    | some (.abort, t'), hx, hz => simp only [Option.some.injEq] at hz; subst hz; exact hx _ rfl

theorem CutOut.pure (hR : W.R s s') (r : β) : CutOut W ((Pure.pure r : FM τ β) s) ((Pure.pure r : FM τ' β) s') :=
  .same hR

theorem CutOut.throw (hR : W.R s s') (e : Exc) :
    CutOut W ((FM.throw e : FM τ β) s) ((FM.throw e : FM τ' β) s') := .same hR

end cut

/-! ## Growth of the line search and of the driver -/

variable {α σ σ' ρ δ : Type} [Arith α]

/-- every operation grows -/
structure GrowOps (ops : Ops α σ ρ δ) (le : σ → σ → Prop) : Prop where
  refl : ∀ s, le s s
  trans : ∀ s t u, le s t → le t u → le s u
  setup : ∀ s, le s (ops.setup s).2
  restarted : ∀ p s, le s (ops.restarted p s).2
  conjugated : ∀ fr p d s, le s (ops.conjugated fr p d s).2
  geo : ∀ p d t s, le s (ops.geo p d t s).2
  refresh : ∀ p s, le s (ops.refresh p s).2
  gather : ∀ p s, le s (ops.gather p s).2
  print : ∀ s, le s (ops.hostPrint s).2

/-- growth of a state of the line search -/
def lsLe (α : Type) (le : σ → σ → Prop) (s t : LSState α σ) : Prop := le s.s t.s

section search
variable {env : LSEnv α σ ρ} {le : σ → σ → Prop} (refl : ∀ s, le s s)
  (trans : ∀ s t u, le s t → le t u → le s u) (hG : ∀ t s, le s (env.G t s).2)

include hG in
theorem grows_evalG (t : α) : GrowsBy (lsLe α le) (evalG env t) := by
  intro s z hz
  rw [evalG] at hz
  simp only [Option.some.injEq] at hz
  subst hz
  exact hG t s.s

include refl in
theorem grows_readF : GrowsBy (lsLe α le) (readF env) := by
  intro s z hz
  rw [readF] at hz
  simp only [Option.some.injEq] at hz
  subst hz
  exact refl _

omit [Arith α] in
include refl in
theorem grows_setRestart (b : Bool) : GrowsBy (lsLe α le) (setRestart b) := by
  intro s z hz
  rw [setRestart, FM.modify_apply] at hz
  simp only [Option.some.injEq] at hz
  subst hz
  exact refl _

omit [Arith α] in
include refl in
theorem grows_ls_pure (r : β) : GrowsBy (lsLe α le) (Pure.pure r : FM (LSState α σ) β) := by
  intro s z hz
  rw [FM.pure_apply] at hz
  simp only [Option.some.injEq] at hz
  subst hz
  exact refl _

omit [Arith α] in
include refl in
theorem grows_ls_throw (e : Exc) : GrowsBy (lsLe α le) (FM.throw e : FM (LSState α σ) β) := by
  intro s z hz
  rw [FM.throw_apply] at hz
  simp only [Option.some.injEq] at hz
  subst hz
  exact refl _

omit [Arith α] in
include refl in
theorem grows_ls_get : GrowsBy (lsLe α le) (FM.get : FM (LSState α σ) _) := by
  intro s z hz
  rw [FM.get_apply] at hz
  simp only [Option.some.injEq] at hz
  subst hz
  exact refl _

omit [Arith α] in
theorem lsLe_trans (trans : ∀ s t u, le s t → le t u → le s u) (s t u : LSState α σ) (h : lsLe α le s t)
    (h' : lsLe α le t u) : lsLe α le s u := trans _ _ _ h h'

include refl trans hG

theorem grows_btLoop (tau F0 : α) : ∀ (n : ℕ) (t : α), GrowsBy (lsLe α le) (btLoop env tau F0 n t)
  | 0, t => by
    unfold btLoop
    split
    · intro s z hz; simp at hz
    · exact grows_ls_pure refl _
  | n + 1, t => by
    unfold btLoop
    split
    · refine (grows_evalG hG t).bind (lsLe_trans trans) fun r => ?_
      refine (grows_readF refl).bind (lsLe_trans trans) fun F => ?_
      split
      · exact (grows_setRestart refl _).bind (lsLe_trans trans) fun _ => grows_ls_pure refl _
      · exact grows_btLoop tau F0 n _
    · exact grows_ls_pure refl _

theorem grows_btSearch (p : LSParams α) (fuel : ℕ) (F0 : α) : GrowsBy (lsLe α le) (btSearch env p fuel F0) := by
  unfold btSearch
  split
  · exact grows_ls_throw refl _
  · refine (grows_btLoop refl trans hG _ _ _ _).bind (lsLe_trans trans) fun r => ?_
    cases r with
    | some r => exact grows_ls_pure refl _
    | none =>
      refine (grows_ls_get refl).bind (lsLe_trans trans) fun u => ?_
      split
      · exact grows_ls_throw refl _
      · exact (grows_setRestart refl _).bind (lsLe_trans trans) fun _ => grows_evalG hG _

theorem grows_qlineLoop (F0 slope : α) : ∀ (n : ℕ) (t : α), GrowsBy (lsLe α le) (qlineLoop env F0 slope n t)
  | 0, t => by
    unfold qlineLoop
    intro s z hz
    simp at hz
  | n + 1, t => by
    unfold qlineLoop
    refine (grows_evalG hG t).bind (lsLe_trans trans) fun r => ?_
    refine (grows_readF refl).bind (lsLe_trans trans) fun F => ?_
    simp only
    split
    · exact grows_qlineLoop F0 slope n _
    · exact grows_ls_pure refl _

theorem grows_lineSearch (p : LSParams α) (fuel : ℕ) (slope : α) :
    GrowsBy (lsLe α le) (lineSearch env p fuel slope) := by
  unfold lineSearch
  split
  · exact grows_ls_throw refl _
  · refine (grows_readF refl).bind (lsLe_trans trans) fun F0 => ?_
    refine (GrowsBy.attempt ?_).bind (lsLe_trans trans) fun r => ?_
    · unfold qline
      refine (grows_readF refl).bind (lsLe_trans trans) fun F0 => ?_
      refine (grows_qlineLoop refl trans hG _ _ _ _).bind (lsLe_trans trans) fun t => ?_
      refine (grows_evalG hG t).bind (lsLe_trans trans) fun r => ?_
      refine (grows_readF refl).bind (lsLe_trans trans) fun F => ?_
      split
      · exact grows_ls_throw refl _
      · exact (grows_setRestart refl _).bind (lsLe_trans trans) fun _ => grows_ls_pure refl _
    · cases r with
      | ok r => exact grows_ls_pure refl _
      | error e =>
        cases e
        all_goals first
          | exact grows_ls_throw refl _
          | exact grows_btSearch refl trans hG _ _ _

end search

/-- growth of a run: of the backend, the file and the trace -/
structure RunLe (le : σ → σ → Prop) (w v : NState α σ) : Prop where
  s : le w.s v.s
  file : w.file <+: v.file
  trace : w.trace <+: v.trace

omit [Arith α] in
theorem RunLe.trans {le : σ → σ → Prop} (ht : ∀ s t u, le s t → le t u → le s u) (w v u : NState α σ)
    (h : RunLe le w v) (h' : RunLe le v u) : RunLe le w u :=
  ⟨ht _ _ _ h.s h'.s, h.file.trans h'.file, h.trace.trans h'.trace⟩

section driver
variable {ops : Ops α σ ρ δ} {le : σ → σ → Prop} (g : GrowOps ops le)

omit [Arith α] in
theorem grows_lift {f : σ → Res β × σ} (h : ∀ s, le s (f s).2) : GrowsBy (RunLe (α := α) le) (liftOp f) := by
  intro w z hz
  rw [liftOp] at hz
  simp only [Option.some.injEq] at hz
  subst hz
  exact ⟨h _, List.prefix_rfl, List.prefix_rfl⟩

include g

omit [Arith α] in
theorem GrowOps.change {f : NState α σ → NState α σ} (h1 : ∀ w, (f w).s = w.s) (h2 : ∀ w, w.file <+: (f w).file)
    (h3 : ∀ w, w.trace <+: (f w).trace) : GrowsBy (RunLe (α := α) le) (FM.modify f) := by
  intro w z hz
  rw [FM.modify_apply] at hz
  simp only [Option.some.injEq] at hz
  subst hz
  exact ⟨by rw [h1]; exact g.refl _, h2 w, h3 w⟩

omit [Arith α] in
theorem GrowOps.still {m : FM (NState α σ) β} (h : ∀ s z, m s = some z → z.2 = s) : GrowsBy (RunLe (α := α) le) m :=
  fun s z hz => by rw [h s z hz]; exact ⟨g.refl _, List.prefix_rfl, List.prefix_rfl⟩

omit [Arith α] in
theorem GrowOps.pure (r : β) : GrowsBy (RunLe (α := α) le) (Pure.pure r) :=
  g.still fun s z h => by rw [FM.pure_apply] at h; cases h; rfl

omit [Arith α] in
theorem GrowOps.throw (e : Exc) : GrowsBy (RunLe (α := α) le) (FM.throw e : FM _ β) :=
  g.still fun s z h => by rw [FM.throw_apply] at h; cases h; rfl

omit [Arith α] in
theorem GrowOps.get : GrowsBy (RunLe (α := α) le) FM.get :=
  g.still fun s z h => by rw [FM.get_apply] at h; cases h; rfl

omit [Arith α] in
theorem GrowOps.emit (e : Ev α) : GrowsBy (RunLe (α := α) le) (emit e) :=
  g.change (fun _ => rfl) (fun _ => List.prefix_rfl) fun _ => List.prefix_append _ _

theorem GrowOps.setInfo (i : ℕ) (slope : α) : GrowsBy (RunLe (α := α) le) (setInfo ops i slope) :=
  g.change (fun _ => rfl) (fun _ => List.prefix_rfl) fun _ => List.prefix_append _ _

theorem GrowOps.json (rank i : ℕ) (slope : α) (p : ρ) :
    GrowsBy (RunLe (α := α) le) (writeJson ops rank i slope p) := by
  intro w z hz
  rw [writeJson] at hz
  simp only [Option.some.injEq] at hz
  subst hz
  refine ⟨?_, ?_, List.prefix_rfl⟩
  · simp only
    split
    · exact g.gather _ _
    · exact g.refl _
  · simp only
    split
    · exact List.prefix_append _ _
    · exact List.prefix_rfl

theorem GrowOps.search (prm : NlcgParams α) (fuel i : ℕ) (v : Vars α ρ δ) :
    GrowsBy (RunLe (α := α) le) (runSearch ops prm fuel i v) := by
  intro w z hz
  have h := grows_lineSearch (env := ⟨ops.geo v.pt v.dir, ops.getF⟩) g.refl g.trans (g.geo v.pt v.dir)
    { tTrial := lit (2 / 10), tau := prm.tau } fuel v.slope { s := w.s, forceRestart := w.force, evals := [] }
  unfold runSearch at hz
  generalize lineSearch (⟨ops.geo v.pt v.dir, ops.getF⟩ : LSEnv α σ ρ) _ _ _ _ = q at h hz
  match q with
  | none => simp at hz
  | some (.ok r, t) =>
    simp only [Option.some.injEq] at hz
    subst hz
    exact ⟨h _ rfl, List.prefix_rfl, List.prefix_append _ _⟩
  | some (.throw e, t) =>
    simp only [Option.some.injEq] at hz
    subst hz
    exact ⟨h _ rfl, List.prefix_rfl, List.prefix_append _ _⟩
  | some (.ub, t) =>
    simp only [Option.some.injEq] at hz
    subst hz
    exact ⟨h _ rfl, List.prefix_rfl, List.prefix_rfl⟩
  | some (.abort, t) =>
    simp only [Option.some.injEq] at hz
    subst hz
    exact ⟨h _ rfl, List.prefix_rfl, List.prefix_rfl⟩

theorem GrowOps.steepest (i : ℕ) (p : ρ) : GrowsBy (RunLe (α := α) le) (callRestarted ops i p) := by
  unfold callRestarted
  refine (grows_lift (g.restarted p)).bind (RunLe.trans g.trans) fun r => ?_
  exact (g.emit _).bind (RunLe.trans g.trans) fun _ => g.pure _

/-- what follows the line search in an iteration -/
theorem GrowOps.body (prm : NlcgParams α) (fuel rank i : ℕ) (v : Vars α ρ δ) :
    GrowsBy (RunLe (α := α) le) (cgBody ops prm fuel rank i v) := by
  unfold cgBody
  refine (g.json _ _ _ _).bind (RunLe.trans g.trans) fun _ => ?_
  refine (g.setInfo _ _).bind (RunLe.trans g.trans) fun _ => ?_
  refine (grows_lift g.print).bind (RunLe.trans g.trans) fun _ => ?_
  refine (g.search _ _ _ _).bind (RunLe.trans g.trans) fun _ => ?_
  refine (grows_lift (g.refresh _)).bind (RunLe.trans g.trans) fun _ => ?_
  split
  · exact g.still fun s z h => by rw [FM.ub_apply] at h; cases h; rfl
  refine g.get.bind (RunLe.trans g.trans) fun _ => ?_
  split
  · exact g.steepest _ _
  refine (grows_lift (g.conjugated _ _ _)).bind (RunLe.trans g.trans) fun q => ?_
  refine (g.emit _).bind (RunLe.trans g.trans) fun _ => ?_
  split
  · refine (g.steepest _ _).bind (RunLe.trans g.trans) fun _ => ?_
    refine GrowsBy.bind (RunLe.trans g.trans) ?_ fun _ => g.pure _
    exact g.change (fun _ => rfl) (fun _ => List.prefix_rfl) fun _ => List.prefix_rfl
  · exact g.pure _

theorem GrowOps.success (rank i : ℕ) (v : Vars α ρ δ) :
    GrowsBy (RunLe (α := α) le) (cgSuccess ops rank i v) := by
  unfold cgSuccess
  refine (g.setInfo _ _).bind (RunLe.trans g.trans) fun _ => ?_
  refine (g.json _ _ _ _).bind (RunLe.trans g.trans) fun _ => ?_
  refine (grows_lift g.print).bind (RunLe.trans g.trans) fun _ => ?_
  refine GrowsBy.bind (RunLe.trans g.trans) ?_ fun _ => ?_
  · exact g.change (fun _ => rfl) (fun _ => List.prefix_rfl) fun _ => List.prefix_rfl
  exact g.get.bind (RunLe.trans g.trans) fun _ => g.pure _

theorem GrowOps.loop (prm : NlcgParams α) (fuel rank : ℕ) : ∀ (n i : ℕ) (v : Vars α ρ δ),
    GrowsBy (RunLe (α := α) le) (cgLoop ops prm fuel rank n i v)
  | 0, i, v => by
    unfold cgLoop
    exact g.get.bind (RunLe.trans g.trans) fun _ => g.pure _
  | n + 1, i, v => by
    unfold cgLoop
    refine (g.emit _).bind (RunLe.trans g.trans) fun _ => ?_
    split
    · exact g.success _ _ _
    · refine (g.body _ _ _ _ _).attempt.bind (RunLe.trans g.trans) fun r => ?_
      cases r with
      | ok v' => exact GrowOps.loop prm fuel rank n (i + 1) v'
      | error e =>
        cases e
        all_goals first
          | exact g.throw _
          | exact g.get.bind (RunLe.trans g.trans) fun _ => g.pure _

end driver

/-! ## Cut off or not -/

/-- states of a line search -/
def lsCut (α : Type) (W : CutWorld σ σ') : CutWorld (LSState α σ) (LSState α σ') where
  file := W.file
  R s s' := W.R s.s s'.s ∧ s.forceRestart = s'.forceRestart
  X s s' := W.X s.s s'.s
  le := lsLe α W.le
  refl s := W.refl s.s
  trans _ _ _ h h' := W.trans _ _ _ h h'
  mono h h' := W.mono h h'

section search
variable {W : CutWorld σ σ'} {env : LSEnv α σ ρ} {env' : LSEnv α σ' ρ}

/-- what the line search needs -/
structure LSCut (W : CutWorld σ σ') (env : LSEnv α σ ρ) (env' : LSEnv α σ' ρ) : Prop where
  G : ∀ t s s', W.R s s' → CutOp W (env.G t s) (env'.G t s')
  F : ∀ s s', W.R s s' → env.getF s = env'.getF s'
  grow : ∀ t s, W.le s (env'.G t s).2

variable (h : LSCut W env env')
include h

theorem evalG_cut (t : α) {s : LSState α σ} {s' : LSState α σ'} (hR : (lsCut α W).R s s') :
    CutOut (lsCut α W) (evalG env t s) (evalG env' t s') := by
  have g := h.G t s.s s'.s hR.1
  rw [evalG, evalG]
  generalize env.G t s.s = x at g
  generalize env'.G t s'.s = y at g
  cases g with
  | same k => exact .same ⟨k, hR.2⟩
  | cut k =>
    refine .cut fun z hz => ?_
    simp only [Option.some.injEq] at hz
    subst hz
    exact k

/-- reading the free energy does nothing else -/
theorem readF_cut {s : LSState α σ} {s' : LSState α σ'} (hR : (lsCut α W).R s s') {f : α → FM (LSState α σ) β}
    {f' : α → FM (LSState α σ') β} (hf : ∀ F, CutOut (lsCut α W) (f F s) (f' F s')) :
    CutOut (lsCut α W) ((readF env >>= f) s) ((readF env' >>= f') s') := by
  rw [FM.bind_apply, FM.bind_apply, readF_apply, readF_apply]
  simp only
  rw [h.F _ _ hR.1]
  exact hf _

omit h [Arith α] in
theorem setRestart_cut (b : Bool) {s : LSState α σ} {s' : LSState α σ'} (hR : (lsCut α W).R s s') :
    CutOut (lsCut α W) (setRestart b s) (setRestart b s') := .same ⟨hR.1, rfl⟩

theorem btLoop_cut (tau F0 : α) : ∀ (n : ℕ) (t : α) (s : LSState α σ) (s' : LSState α σ'),
    (lsCut α W).R s s' → CutOut (lsCut α W) (btLoop env tau F0 n t s) (btLoop env' tau F0 n t s')
  | 0, t, s, s', hR => by
    unfold btLoop
    split
    · exact .none
    · exact .same hR
  | n + 1, t, s, s', hR => by
    unfold btLoop
    split
    · refine (evalG_cut h t hR).bind (fun r s s' hR => ?_) fun r => ?_
      · refine readF_cut h hR fun F => ?_
        split
        · exact (setRestart_cut _ hR).bind (fun _ _ _ hR => .same hR) fun _ => grows_ls_pure W.refl _
        · exact btLoop_cut tau F0 n _ s s' hR
      · refine GrowsBy.bind (lsLe_trans W.trans) (grows_readF W.refl) fun F => ?_
        split
        · exact (grows_setRestart W.refl _).bind (lsLe_trans W.trans) fun _ => grows_ls_pure W.refl _
        · exact grows_btLoop W.refl W.trans h.grow _ _ _ _
    · exact .same hR

theorem btSearch_cut (p : LSParams α) (fuel : ℕ) (F0 : α) {s : LSState α σ} {s' : LSState α σ'}
    (hR : (lsCut α W).R s s') : CutOut (lsCut α W) (btSearch env p fuel F0 s) (btSearch env' p fuel F0 s') := by
  unfold btSearch
  split
  · exact .same hR
  · refine (btLoop_cut h p.tau F0 fuel p.tTrial s s' hR).bind (fun r s s' hR => ?_) fun r => ?_
    · cases r with
      | some r => exact .same hR
      | none =>
        simp only
        rw [FM.bind_apply, FM.bind_apply, FM.get_apply, FM.get_apply]
        simp only
        rw [hR.2]
        split
        · exact .same hR
        · exact (setRestart_cut _ hR).bind (fun _ _ _ hR => evalG_cut h _ hR) fun _ => grows_evalG h.grow _
    · cases r with
      | some r => exact grows_ls_pure W.refl _
      | none =>
        refine GrowsBy.bind (lsLe_trans W.trans) (grows_ls_get W.refl) fun u => ?_
        split
        · exact grows_ls_throw W.refl _
        · exact (grows_setRestart W.refl _).bind (lsLe_trans W.trans) fun _ => grows_evalG h.grow _

theorem qlineLoop_cut (F0 slope : α) : ∀ (n : ℕ) (t : α) (s : LSState α σ) (s' : LSState α σ'),
    (lsCut α W).R s s' → CutOut (lsCut α W) (qlineLoop env F0 slope n t s) (qlineLoop env' F0 slope n t s')
  | 0, t, s, s', hR => by
    unfold qlineLoop
    exact .none
  | n + 1, t, s, s', hR => by
    unfold qlineLoop
    refine (evalG_cut h t hR).bind (fun r s s' hR => ?_) fun r => ?_
    · refine readF_cut h hR fun F => ?_
      by_cases hc : (qCurv F0 slope F t <ᶠ lit 0) = true
      · rw [if_pos hc, if_pos hc]
        exact qlineLoop_cut F0 slope n _ s s' hR
      · rw [if_neg hc, if_neg hc]
        exact .same hR
    · refine GrowsBy.bind (lsLe_trans W.trans) (grows_readF W.refl) fun F => ?_
      simp only
      split
      · exact grows_qlineLoop W.refl W.trans h.grow _ _ _ _
      · exact grows_ls_pure W.refl _

theorem qline_cut (p : LSParams α) (fuel : ℕ) (slope : α) {s : LSState α σ} {s' : LSState α σ'}
    (hR : (lsCut α W).R s s') : CutOut (lsCut α W) (qline env p fuel slope s) (qline env' p fuel slope s') := by
  have hend : ∀ (F0 : α) (r : ρ), GrowsBy (lsLe α W.le)
      (readF env' >>= fun Fmin => if F0 <ᶠ Fmin then FM.throw .stepError
        else setRestart false >>= fun _ => (Pure.pure r : FM (LSState α σ') ρ)) := by
    intro F0 r
    refine GrowsBy.bind (lsLe_trans W.trans) (grows_readF W.refl) fun F => ?_
    split
    · exact grows_ls_throw W.refl _
    · exact (grows_setRestart W.refl _).bind (lsLe_trans W.trans) fun _ => grows_ls_pure W.refl _
  unfold qline
  refine readF_cut h hR fun F0 => ?_
  refine (qlineLoop_cut h F0 slope fuel p.tTrial s s' hR).bind (fun t s s' hR => ?_) fun t => ?_
  · refine (evalG_cut h t hR).bind (fun r s s' hR => ?_) fun r => hend F0 r
    refine readF_cut h hR fun F => ?_
    split
    · exact .same hR
    · exact (setRestart_cut _ hR).bind (fun _ _ _ hR => .same hR) fun _ => grows_ls_pure W.refl _
  · exact GrowsBy.bind (lsLe_trans W.trans) (grows_evalG h.grow t) fun r => hend F0 r

theorem lineSearch_cut (p : LSParams α) (fuel : ℕ) (slope : α) {s : LSState α σ} {s' : LSState α σ'}
    (hR : (lsCut α W).R s s') :
    CutOut (lsCut α W) (lineSearch env p fuel slope s) (lineSearch env' p fuel slope s') := by
  unfold lineSearch
  split
  · exact .same hR
  · refine readF_cut h hR fun F0 => ?_
    refine (qline_cut h p fuel slope hR).bind_attempt (fun r s s' hR => ?_) (fun r => ?_) rfl
    · cases r with
      | ok r => exact .same hR
      | error e =>
        cases e
        all_goals first
          | exact CutOut.throw hR _
          | exact btSearch_cut h p fuel F0 hR
    · cases r with
      | ok r => exact grows_ls_pure W.refl _
      | error e =>
        cases e
        all_goals first
          | exact grows_ls_throw W.refl _
          | exact grows_btSearch W.refl W.trans h.grow _ _ _

end search

/-- states of a run -/
def runCut (α : Type) (W : CutWorld σ σ') : CutWorld (NState α σ) (NState α σ') where
  file := W.file
  R w w' := W.R w.s w'.s ∧ w.file = w'.file ∧ w.info = w'.info ∧ w.force = w'.force ∧ w.trace = w'.trace
  X w w' := W.X w.s w'.s ∧ (W.file → w.file <+: w'.file) ∧ reports w.trace <+: reports w'.trace
  le := RunLe W.le
  refl w := ⟨W.refl _, List.prefix_rfl, List.prefix_rfl⟩
  trans := RunLe.trans W.trans
  mono h h' := ⟨W.mono h.1 h'.s, fun hw => (h.2.1 hw).trans h'.file, h.2.2.trans (by
    obtain ⟨l, hl⟩ := h'.trace
    rw [← hl, reports_append]
    exact List.prefix_append _ _)⟩

/-- corresponding operations -/
structure CutOps (A : Ops α σ ρ δ) (B : Ops α σ' ρ δ) (W : CutWorld σ σ') : Prop where
  construct : ∀ s s', W.R s s' → (A.construct s).1 = (B.construct s').1 ∧
    W.R (A.construct s).2 (B.construct s').2
  setup : ∀ s s', W.R s s' → CutOp W (A.setup s) (B.setup s')
  restarted : ∀ p s s', W.R s s' → CutOp W (A.restarted p s) (B.restarted p s')
  conjugated : ∀ fr p d s s', W.R s s' → CutOp W (A.conjugated fr p d s) (B.conjugated fr p d s')
  geo : ∀ p d t s s', W.R s s' → CutOp W (A.geo p d t s) (B.geo p d t s')
  refresh : ∀ p s s', W.R s s' → CutOp W (A.refresh p s) (B.refresh p s')
  gather : ∀ p s s', W.R s s' → CutOp W (A.gather p s) (B.gather p s')
  gather_file : W.file → ∀ p s s', W.R s s' → (A.gather p s).1 = (B.gather p s').1
  print : ∀ s s', W.R s s' → CutOp W (A.hostPrint s) (B.hostPrint s')
  getF : ∀ s s', W.R s s' → A.getF s = B.getF s'
  getS : ∀ s s', W.R s s' → A.getS s = B.getS s'
  grow : GrowOps B W.le

section driver
variable {A : Ops α σ ρ δ} {B : Ops α σ' ρ δ} {W : CutWorld σ σ'} (h : CutOps A B W)
include h

omit [Arith α] h in
theorem liftOp_cut {f : σ → Res β × σ} {f' : σ' → Res β × σ'} {w : NState α σ} {w' : NState α σ'}
    (hR : (runCut α W).R w w') (hf : CutOp W (f w.s) (f' w'.s)) :
    CutOut (runCut α W) (liftOp f w) (liftOp f' w') := by
  rw [liftOp, liftOp]
  generalize f w.s = x at hf
  generalize f' w'.s = y at hf
  cases hf with
  | same k => exact .same ⟨k, hR.2⟩
  | cut k =>
    refine .cut fun z hz => ?_
    simp only [Option.some.injEq] at hz
    subst hz
    refine ⟨k, ?_, ?_⟩
    · simp only [hR.2.1]; exact fun _ => List.prefix_rfl
    · simp only [hR.2.2.2.2]; exact List.prefix_rfl

omit [Arith α] h in
theorem emit_cut (e : Ev α) {w : NState α σ} {w' : NState α σ'} (hR : (runCut α W).R w w') :
    CutOut (runCut α W) (emit e w) (emit e w') :=
  .same ⟨hR.1, hR.2.1, hR.2.2.1, hR.2.2.2.1, by simp only; rw [hR.2.2.2.2]⟩

theorem setInfo_cut (i : ℕ) (slope : α) {w : NState α σ} {w' : NState α σ'} (hR : (runCut α W).R w w') :
    CutOut (runCut α W) (setInfo A i slope w) (setInfo B i slope w') := by
  refine .same ⟨hR.1, hR.2.1, ?_, hR.2.2.2.1, ?_⟩
  · simp only
    rw [h.getF _ _ hR.1, h.getS _ _ hR.1]
  · simp only
    rw [h.getF _ _ hR.1, h.getS _ _ hR.1, hR.2.2.2.2]

theorem writeJson_cut (rank i : ℕ) (slope : α) (p : ρ) {w : NState α σ} {w' : NState α σ'}
    (hR : (runCut α W).R w w') :
    CutOut (runCut α W) (writeJson A rank i slope p w) (writeJson B rank i slope p w') := by
  have key : CutOp W (if i % 10 = 0 then A.gather p w.s else (.ok (), w.s))
      (if i % 10 = 0 then B.gather p w'.s else (.ok (), w'.s)) := by
    split
    · exact h.gather p _ _ hR.1
    · exact .same hR.1
  have key' : W.file → (if i % 10 = 0 then A.gather p w.s else (.ok (), w.s)).1
      = (if i % 10 = 0 then B.gather p w'.s else (.ok (), w'.s)).1 := by
    intro hw
    split
    · exact h.gather_file hw p _ _ hR.1
    · rfl
  unfold writeJson
  simp only
  rw [h.getF _ _ hR.1, h.getS _ _ hR.1, hR.2.1]
  generalize (if i % 10 = 0 then A.gather p w.s else (Res.ok (), w.s)) = g at key key'
  generalize (if i % 10 = 0 then B.gather p w'.s else (Res.ok (), w'.s)) = g' at key key'
  cases key with
  | same k => exact .same ⟨k, rfl, hR.2.2⟩
  | cut k =>
    refine .cut fun z hz => ?_
    simp only [Option.some.injEq] at hz
    subst hz
    refine ⟨k, fun hw => ?_, ?_⟩
    · have := key' hw
      simp only at this
      simp only [this]
      exact List.prefix_rfl
    · simp only [hR.2.2.2.2]; exact List.prefix_rfl

theorem runSearch_cut (prm : NlcgParams α) (fuel i : ℕ) (v : Vars α ρ δ) {w : NState α σ} {w' : NState α σ'}
    (hR : (runCut α W).R w w') :
    CutOut (runCut α W) (runSearch A prm fuel i v w) (runSearch B prm fuel i v w') := by
  have hl : LSCut W (⟨A.geo v.pt v.dir, A.getF⟩ : LSEnv α σ ρ) ⟨B.geo v.pt v.dir, B.getF⟩ :=
    ⟨fun t s s' hs => h.geo _ _ t s s' hs, h.getF, fun t s => h.grow.geo _ _ t s⟩
  have key := lineSearch_cut hl { tTrial := lit (2 / 10), tau := prm.tau } fuel v.slope
    (s := { s := w.s, forceRestart := w.force, evals := [] })
    (s' := { s := w'.s, forceRestart := w'.force, evals := [] }) ⟨hR.1, hR.2.2.2.1⟩
  unfold runSearch
  generalize lineSearch (⟨A.geo v.pt v.dir, A.getF⟩ : LSEnv α σ ρ) _ _ _ _ = o at key
  generalize lineSearch (⟨B.geo v.pt v.dir, B.getF⟩ : LSEnv α σ' ρ) _ _ _ _ = o' at key
  obtain ⟨-, hf, hi, hg, ht⟩ := hR
  cases key with
  | none => exact .none
  | same k =>
    rename_i r t t'
    obtain ⟨k1, k2⟩ := k
    cases r with
    | ok r => exact .same ⟨k1, hf, hi, k2, by simp only; rw [ht, hg, k2]⟩
    | throw e => exact .same ⟨k1, hf, hi, k2, by simp only; rw [ht, hg]⟩
    | ub => exact .same ⟨k1, hf, hi, k2, ht⟩
    | abort => exact .same ⟨k1, hf, hi, k2, ht⟩
  | cut k =>
    refine .cut fun z hz => ?_
    match o', k, hz with
    | some (.ok r, t'), k, hz =>
      simp only [Option.some.injEq] at hz
      subst hz
      refine ⟨k _ rfl, ?_, ?_⟩
      · simp only [hf]; exact fun _ => List.prefix_rfl
      · simp only [ht, reports_append, reports, List.append_nil]; exact List.prefix_rfl
    | some (.throw e, t'), k, hz =>
      simp only [Option.some.injEq] at hz
      subst hz
      refine ⟨k _ rfl, ?_, ?_⟩
      · simp only [hf]; exact fun _ => List.prefix_rfl
      · simp only [ht, reports_append, reports, List.append_nil]; exact List.prefix_rfl
    | some (.ub, t'), k, hz =>
      simp only [Option.some.injEq] at hz
      subst hz
      refine ⟨k _ rfl, ?_, ?_⟩
      · simp only [hf]; exact fun _ => List.prefix_rfl
      · simp only [ht, reports_append, reports, List.append_nil]; exact List.prefix_rfl
    | some (.abort, t'), k, hz =>
      simp only [Option.some.injEq] at hz
      subst hz
      refine ⟨k _ rfl, ?_, ?_⟩
      · simp only [hf]; exact fun _ => List.prefix_rfl
      · simp only [ht, reports_append, reports, List.append_nil]; exact List.prefix_rfl

/-- both programs beside each other, from the same place, and growth of the second one -/
structure Beside (W : CutWorld σ σ') (m : FM (NState α σ) β) (m' : FM (NState α σ') β) : Prop where
  out : ∀ w w', (runCut α W).R w w' → CutOut (runCut α W) (m w) (m' w')
  grow : GrowsBy (RunLe W.le) m'

omit [Arith α] h in
theorem Beside.bind {m : FM (NState α σ) β} {m' : FM (NState α σ') β} {f : β → FM (NState α σ) γ}
    {f' : β → FM (NState α σ') γ} (hm : Beside W m m') (hf : ∀ r, Beside W (f r) (f' r)) :
    Beside W (m >>= f) (m' >>= f') :=
  ⟨fun w w' hR => (hm.out w w' hR).bind (fun r t t' hR => (hf r).out t t' hR) fun r => (hf r).grow,
    hm.grow.bind (RunLe.trans W.trans) fun r => (hf r).grow⟩

omit [Arith α] h in
theorem Beside.bind_attempt {m : FM (NState α σ) β} {m' : FM (NState α σ') β} {f : Except Exc β → FM (NState α σ) γ}
    {f' : Except Exc β → FM (NState α σ') γ} (hm : Beside W m m') (hf : ∀ r, Beside W (f r) (f' r))
    (hp : f (.error .runtimeError) = FM.throw .runtimeError) :
    Beside W (FM.attempt m >>= f) (FM.attempt m' >>= f') :=
  ⟨fun w w' hR => (hm.out w w' hR).bind_attempt (fun r t t' hR => (hf r).out t t' hR) (fun r => (hf r).grow) hp,
    hm.grow.attempt.bind (RunLe.trans W.trans) fun r => (hf r).grow⟩

omit [Arith α] in
theorem CutOps.still {m : FM (NState α σ) β} {m' : FM (NState α σ') β} (o : Res β)
    (hm : ∀ w, m w = some (o, w)) (hm' : ∀ w, m' w = some (o, w)) : Beside W m m' :=
  ⟨fun w w' hR => by rw [hm, hm']; exact .same hR, h.grow.still fun w z hz => by
    rw [hm'] at hz; cases hz; rfl⟩

omit [Arith α] in
theorem CutOps.pure (r : β) : Beside W (Pure.pure r : FM (NState α σ) β) (Pure.pure r) :=
  h.still (.ok r) (fun _ => rfl) fun _ => rfl

omit [Arith α] in
theorem CutOps.throw (e : Exc) : Beside W (FM.throw e : FM (NState α σ) β) (FM.throw e) :=
  h.still (.throw e) (fun _ => rfl) fun _ => rfl

omit [Arith α] h in
theorem Beside.lift {f : σ → Res β × σ} {f' : σ' → Res β × σ'} (hf : ∀ s s', W.R s s' → CutOp W (f s) (f' s'))
    (hg : ∀ s, W.le s (f' s).2) : Beside W (liftOp f : FM (NState α σ) β) (liftOp f') :=
  ⟨fun _ _ hR => liftOp_cut hR (hf _ _ hR.1), grows_lift hg⟩

omit [Arith α] in
theorem CutOps.emit (e : Ev α) : Beside W (emit e) (emit e) := ⟨fun _ _ hR => emit_cut e hR, h.grow.emit e⟩

/-- the part of `get` that is used: a value that is the same in both programs -/
theorem CutOps.get {f : NState α σ → FM (NState α σ) γ} {f' : NState α σ' → FM (NState α σ') γ}
    (hf : ∀ w w', (runCut α W).R w w' → CutOut (runCut α W) (f w w) (f' w' w'))
    (hg : ∀ w, GrowsBy (RunLe W.le) (f' w)) : Beside W (FM.get >>= f) (FM.get >>= f') :=
  ⟨fun w w' hR => by
    rw [FM.bind_apply, FM.bind_apply, FM.get_apply, FM.get_apply]
    exact hf w w' hR, h.grow.get.bind (RunLe.trans W.trans) hg⟩

theorem CutOps.info : Beside W (FM.get >>= fun w : NState α σ => (Pure.pure w.info : FM _ _))
    (FM.get >>= fun w => Pure.pure w.info) :=
  h.get (fun w w' hR => by rw [hR.2.2.1]; exact .same hR) fun _ => h.grow.pure _

theorem CutOps.steepest (i : ℕ) (p : ρ) : Beside W (callRestarted A i p) (callRestarted B i p) := by
  unfold callRestarted
  refine (Beside.lift (h.restarted p) (h.grow.restarted p)).bind fun r => ?_
  exact (h.emit _).bind fun _ => h.pure _

theorem CutOps.json (rank i : ℕ) (slope : α) (p : ρ) :
    Beside W (writeJson A rank i slope p) (writeJson B rank i slope p) :=
  ⟨fun _ _ hR => writeJson_cut h rank i slope p hR, h.grow.json rank i slope p⟩

theorem CutOps.report (i : ℕ) (slope : α) : Beside W (setInfo A i slope) (setInfo B i slope) :=
  ⟨fun _ _ hR => setInfo_cut h i slope hR, h.grow.setInfo i slope⟩

theorem CutOps.search (prm : NlcgParams α) (fuel i : ℕ) (v : Vars α ρ δ) :
    Beside W (runSearch A prm fuel i v) (runSearch B prm fuel i v) :=
  ⟨fun _ _ hR => runSearch_cut h prm fuel i v hR, h.grow.search prm fuel i v⟩

/-- the end of an iteration with a conjugated direction -/
theorem CutOps.next (i : ℕ) (v : Vars α ρ δ) (pt : ρ) :
    Beside W (do
      let (fr, slope, dir) ← liftOp (A.conjugated v.fr pt v.dir)
      Nlcg.emit (.conjugate i slope)
      if lit 0 <ᶠ slope then do
        let v' ← callRestarted A i pt
        FM.modify fun w => { w with force := true }
        Pure.pure v'
      else Pure.pure { pt := pt, dir := dir, slope := slope, fr := fr })
    (do
      let (fr, slope, dir) ← liftOp (B.conjugated v.fr pt v.dir)
      Nlcg.emit (.conjugate i slope)
      if lit 0 <ᶠ slope then do
        let v' ← callRestarted B i pt
        FM.modify fun w => { w with force := true }
        Pure.pure v'
      else Pure.pure { pt := pt, dir := dir, slope := slope, fr := fr }) := by
  refine (Beside.lift (h.conjugated _ _ _) (h.grow.conjugated _ _ _)).bind fun q => ?_
  refine (h.emit _).bind fun _ => ?_
  split
  · refine (h.steepest _ _).bind fun _ => ?_
    refine Beside.bind (m := FM.modify _) (m' := FM.modify _) ⟨fun w w' hR => ?_, ?_⟩ fun _ => h.pure _
    · exact .same ⟨hR.1, hR.2.1, hR.2.2.1, rfl, hR.2.2.2.2⟩
    · exact h.grow.change (fun _ => rfl) (fun _ => List.prefix_rfl) fun _ => List.prefix_rfl
  · exact h.pure _

theorem CutOps.body (prm : NlcgParams α) (fuel rank i : ℕ) (v : Vars α ρ δ) :
    Beside W (cgBody A prm fuel rank i v) (cgBody B prm fuel rank i v) := by
  unfold cgBody
  refine (h.json _ _ _ _).bind fun _ => ?_
  refine (h.report _ _).bind fun _ => ?_
  refine (Beside.lift h.print h.grow.print).bind fun _ => ?_
  refine (h.search _ _ _ _).bind fun _ => ?_
  refine (Beside.lift (h.refresh _) (h.grow.refresh _)).bind fun pt => ?_
  split
  · exact h.still .ub (fun _ => rfl) fun _ => rfl
  refine h.get (fun w w' hR => ?_) fun w => ?_
  · rw [hR.2.2.2.1]
    split
    · exact (h.steepest i pt).out _ _ hR
    · exact (h.next i v pt).out _ _ hR
  · split
    · exact (h.steepest i pt).grow
    · exact (h.next i v pt).grow

theorem CutOps.success (rank i : ℕ) (v : Vars α ρ δ) : Beside W (cgSuccess A rank i v) (cgSuccess B rank i v) := by
  unfold cgSuccess
  refine (h.report _ _).bind fun _ => ?_
  refine (h.json _ _ _ _).bind fun _ => ?_
  refine (Beside.lift h.print h.grow.print).bind fun _ => ?_
  refine Beside.bind (m := FM.modify _) (m' := FM.modify _) ⟨fun w w' hR => ?_, ?_⟩ fun _ => h.info
  · exact .same ⟨hR.1, hR.2.1, by simp only; rw [hR.2.2.1], hR.2.2.2.1, hR.2.2.2.2⟩
  · exact h.grow.change (fun _ => rfl) (fun _ => List.prefix_rfl) fun _ => List.prefix_rfl

theorem CutOps.loop (prm : NlcgParams α) (fuel rank : ℕ) : ∀ (n i : ℕ) (v : Vars α ρ δ),
    Beside W (cgLoop A prm fuel rank n i v) (cgLoop B prm fuel rank n i v)
  | 0, i, v => by
    unfold cgLoop
    exact h.info
  | n + 1, i, v => by
    unfold cgLoop
    refine (h.emit _).bind fun _ => ?_
    split
    · exact h.success _ _ _
    · refine (h.body _ _ _ _ _).bind_attempt (fun r => ?_) rfl
      cases r with
      | ok v' => exact CutOps.loop prm fuel rank n (i + 1) v'
      | error e =>
        cases e
        all_goals first
          | exact h.throw _
          | exact h.info

/-- everything after `remove("nlcg.json")` -/
theorem CutOps.main (prm : NlcgParams α) (fuel rank : ℕ) :
    Beside W (do
      let pt ← liftOp A.setup
      let (slope, dir) ← liftOp (A.restarted pt)
      FM.modify fun w => { w with force := false }
      cgLoop A prm fuel rank prm.maxiter.toNat 0 { pt := pt, dir := dir, slope := slope, fr := slope })
    (do
      let pt ← liftOp B.setup
      let (slope, dir) ← liftOp (B.restarted pt)
      FM.modify fun w => { w with force := false }
      cgLoop B prm fuel rank prm.maxiter.toNat 0 { pt := pt, dir := dir, slope := slope, fr := slope }) := by
  refine (Beside.lift h.setup h.grow.setup).bind fun pt => ?_
  refine (Beside.lift (h.restarted _) (h.grow.restarted _)).bind fun q => ?_
  refine Beside.bind (m := FM.modify _) (m' := FM.modify _) ⟨fun w w' hR => ?_, ?_⟩ fun _ => h.loop _ _ _ _ _ _
  · exact .same ⟨hR.1, hR.2.1, hR.2.2.1, rfl, hR.2.2.2.2⟩
  · exact h.grow.change (fun _ => rfl) (fun _ => List.prefix_rfl) fun _ => List.prefix_rfl

/-- a run that may be cut off, beside one that is not -/
theorem CutOps.run (prm : NlcgParams α) (fuel rank : ℕ) (w : NState α σ) (w' : NState α σ')
    (hR : (runCut α W).R w w') : CutOut (runCut α W) (nlcg A prm fuel rank w) (nlcg B prm fuel rank w') := by
  obtain ⟨hc1, hc2⟩ := h.construct _ _ hR.1
  unfold nlcg
  rw [FM.bind_apply, FM.bind_apply, FM.modify_apply, FM.modify_apply]
  simp only
  rw [FM.bind_apply, FM.bind_apply, liftOp, liftOp]
  simp only
  rw [hc1]
  cases hq : (B.construct w'.s).1 with
  | ok _ =>
    simp only
    rw [FM.bind_apply, FM.bind_apply, FM.modify_apply, FM.modify_apply]
    exact (h.main prm fuel rank).out _ _ ⟨hc2, rfl, rfl, hR.2.2.2.1, rfl⟩
  | throw e => exact .same ⟨hc2, hR.2.1, rfl, hR.2.2.2.1, rfl⟩
  | ub => exact .same ⟨hc2, hR.2.1, rfl, hR.2.2.2.1, rfl⟩
  | abort => exact .same ⟨hc2, hR.2.1, rfl, hR.2.2.2.1, rfl⟩

end driver

end Nlcg
