import Verif.Proofs.CutLimit

/-! A run with a larger tolerance beside one with a smaller tolerance. -/

namespace Nlcg
open Arith Spec

variable {σ ρ δ : Type} {ops : Ops ℝ σ ρ δ} {le : σ → σ → Prop}

/-- an iteration from the line search on -/
noncomputable def bodyRest (ops : Ops ℝ σ ρ δ) (prm : NlcgParams ℝ) (fuel i : ℕ) (v : Vars ℝ ρ δ) :
    FM (NState ℝ σ) (Vars ℝ ρ δ) := do
  let r ← runSearch ops prm fuel i v
  let pt ← liftOp (ops.refresh r)
  if prm.restart = 0 then FM.ub
  else do
    let w ← FM.get
    if Int.tmod (i : Int) prm.restart = 0 ∨ w.force = true then callRestarted ops i pt
    else do
      let (fr, slope, dir) ← liftOp (ops.conjugated v.fr pt v.dir)
      emit (.conjugate i slope)
      if lit 0 <ᶠ slope then do
        let v' ← callRestarted ops i pt
        FM.modify fun w => { w with force := true }
        pure v'
      else pure { pt := pt, dir := dir, slope := slope, fr := fr }

theorem GrowOps.rest (g : GrowOps ops le) (prm : NlcgParams ℝ) (fuel i : ℕ) (v : Vars ℝ ρ δ) :
    GrowsBy (RunLe (α := ℝ) le) (bodyRest ops prm fuel i v) := by
  unfold bodyRest
  refine (g.search _ _ _ _).bind (RunLe.trans g.trans) fun _ => ?_
  refine (grows_lift (g.refresh _)).bind (RunLe.trans g.trans) fun _ => ?_
  split
  · exact g.still fun s z h => by rw [FM.ub_apply] at h; cases h; rfl
  refine g.get.bind (RunLe.trans g.trans) fun _ => ?_
  split
  · exact g.steepest _ _
  refine (grows_lift (g.conjugated _ _ _)).bind (RunLe.trans g.trans) fun q => ?_
  refine (g.emit _).bind (RunLe.trans g.trans) fun _ => ?_
  split
  · refine (g.steepest _ _).bind (RunLe.trans g.trans) fun _ => ?_
    refine GrowsBy.bind (RunLe.trans g.trans) ?_ fun _ => g.pure _
    exact g.change (fun _ => rfl) (fun _ => List.prefix_rfl) fun _ => List.prefix_rfl
  · exact g.pure _

/-- the same end; or the first run has converged, and the second went on -/
inductive TolOut (le : σ → σ → Prop) :
    Option (Res (Info ℝ) × NState ℝ σ) → Option (Res (Info ℝ) × NState ℝ σ) → Prop
  | same (x) : TolOut le x x
  | reached {v y} : v.info.converged = true → (∀ z, y = some z → RunLe le v z.2) →
      TolOut le (some (.ok v.info, v)) y

/-- gathers do nothing to the backend, printing fails with foreign exceptions only -/
structure PlainOutput (ops : Ops ℝ σ ρ δ) : Prop where
  gather : ∀ p s, ops.gather p s = (.ok (), s)
  print : ∀ s, (ops.hostPrint s).1 = .ok () ∨ (ops.hostPrint s).1 = .throw .runtimeError

/-- the state after record, report and printing, at the start of an iteration or at the end of a run -/
noncomputable def shownState (ops : Ops ℝ σ ρ δ) (rank i : ℕ) (v : Vars ℝ ρ δ) (w : NState ℝ σ) (conv : Bool) :
    NState ℝ σ :=
  { s := (ops.hostPrint w.s).2
    file := if rank = 0 then w.file ++ [⟨i, ops.getF w.s, ops.getS w.s, v.slope, decide (i % 10 = 0) && true⟩] else w.file
    info := { printInfo (ops.getF w.s) (ops.getS w.s) v.slope i with converged := conv }
    force := w.force
    trace := w.trace ++ [.report i (ops.getF w.s) (ops.getS w.s) v.slope] }

theorem plain_json (hp : PlainOutput ops) (rank i : ℕ) (v : Vars ℝ ρ δ) (w : NState ℝ σ) :
    writeJson ops rank i v.slope v.pt w = some (.ok (), { w with
      file := if rank = 0 then w.file ++ [⟨i, ops.getF w.s, ops.getS w.s, v.slope, decide (i % 10 = 0) && true⟩] else w.file }) := by
  have hg : (if i % 10 = 0 then ops.gather v.pt w.s else (Res.ok (), w.s)) = (.ok (), w.s) := by
    split
    · exact hp.gather _ _
    · rfl
  unfold writeJson
  rw [hg]
  simp

theorem plain_success (hp : PlainOutput ops) (rank i : ℕ) (v : Vars ℝ ρ δ) (w : NState ℝ σ) :
    cgSuccess ops rank i v w = match (ops.hostPrint w.s).1 with
      | .ok _ => some (.ok (shownState ops rank i v w true).info, shownState ops rank i v w true)
      | o => some (o.fail, shownState ops rank i v w false) := by
  unfold cgSuccess
  rw [FM.bind_apply, setInfo, FM.modify_apply]
  simp only
  rw [FM.bind_apply, plain_json hp]
  simp only
  rw [FM.bind_apply, liftOp]
  simp only
  cases (ops.hostPrint w.s).1 <;> rfl

theorem plain_body (hp : PlainOutput ops) (prm : NlcgParams ℝ) (fuel rank i : ℕ) (v : Vars ℝ ρ δ) (w : NState ℝ σ) :
    cgBody ops prm fuel rank i v w = match (ops.hostPrint w.s).1 with
      | .ok _ => bodyRest ops prm fuel i v (shownState ops rank i v w false)
      | o => some (o.fail, shownState ops rank i v w false) := by
  unfold cgBody
  rw [FM.bind_apply, plain_json hp]
  simp only
  rw [FM.bind_apply, setInfo, FM.modify_apply]
  simp only
  rw [FM.bind_apply, liftOp]
  simp only
  cases (ops.hostPrint w.s).1 <;> rfl

theorem tol_loop (g : GrowOps ops le) (hp : PlainOutput ops) (prm : NlcgParams ℝ) {tol : ℝ} (ht : tol ≤ prm.tol)
    (fuel rank : ℕ) : ∀ (n i : ℕ) (v : Vars ℝ ρ δ) (w : NState ℝ σ),
    TolOut le (cgLoop ops prm fuel rank n i v w) (cgLoop ops { prm with tol := tol } fuel rank n i v w)
  | 0, i, v, w => .same _
  | n + 1, i, v, w => by
    have ih := tol_loop g hp prm ht fuel rank n
    rw [cgLoop, cgLoop, FM.bind_apply, FM.bind_apply, emit, FM.modify_apply]
    simp only
    rw [show cgBody ops { prm with tol := tol } fuel rank i v = cgBody ops prm fuel rank i v from rfl]
    by_cases h1 : |v.slope| < prm.tol
    · have e1 : (Arith.abs v.slope <ᶠ prm.tol) = true := by simpa using h1
      rw [if_pos e1]
      by_cases h2 : |v.slope| < tol
      · have e2 : (Arith.abs v.slope <ᶠ tol) = true := by simpa using h2
        rw [if_pos e2]
        exact .same _
      · have e2 : ¬ (Arith.abs v.slope <ᶠ tol) = true := by simpa using h2
        rw [if_neg e2, plain_success hp]
        generalize hw : ({ w with trace := w.trace ++ [Ev.start i v.slope] } : NState ℝ σ) = w1
        rcases hp.print w1.s with hq | hq
        · rw [hq]
          refine .reached rfl fun z hz => ?_
          have hb : cgBody ops prm fuel rank i v w1 = bodyRest ops prm fuel i v (shownState ops rank i v w1 false) := by
            rw [plain_body hp, hq]
          have hb' : ∀ f : Except Exc (Vars ℝ ρ δ) → FM (NState ℝ σ) (Info ℝ),
              (FM.attempt (cgBody ops prm fuel rank i v) >>= f) w1
                = (FM.attempt (bodyRest ops prm fuel i v) >>= f) (shownState ops rank i v w1 false) := by
            intro f
            rw [FM.bind_apply, FM.bind_apply, FM.attempt, FM.attempt, hb]
          rw [hb'] at hz
          refine (fun hz' : RunLe le (shownState ops rank i v w1 false) z.2 => ?_) ((g.rest prm fuel i v).attempt.bind (RunLe.trans g.trans) (fun r => ?_) _ z hz)
          · exact ⟨hz'.s, hz'.file, hz'.trace⟩
          cases r with
          | ok v' => exact g.loop _ fuel rank n (i + 1) v'
          | error e =>
            cases e
            all_goals first
              | exact g.throw _
              | exact g.get.bind (RunLe.trans g.trans) fun _ => g.pure _
        · rw [hq]
          rw [FM.bind_apply, FM.attempt, plain_body hp, hq]
          exact .same _
    · have e1 : ¬ (Arith.abs v.slope <ᶠ prm.tol) = true := by simpa using h1
      have e2 : ¬ (Arith.abs v.slope <ᶠ tol) = true := by
        simpa using le_trans ht (not_lt.1 h1)
      rw [if_neg e1, if_neg e2, FM.bind_apply, FM.bind_apply, FM.attempt]
      rcases cgBody ops prm fuel rank i v { w with trace := w.trace ++ [.start i v.slope] } with _ | ⟨o, w1⟩
      · exact .same _
      · cases o with
        | ok v' => exact ih (i + 1) v' w1
        | throw e => cases e <;> exact .same _
        | ub => exact .same _
        | abort => exact .same _

/-- the part of a run before the loop does not depend on the parameters -/
theorem nlcg_head (ops : Ops ℝ σ ρ δ) (fuel rank : ℕ) (w : NState ℝ σ) :
    (∃ o v, (∀ info, o ≠ .ok info) ∧ ∀ prm, nlcg ops prm fuel rank w = some (o, v)) ∨
    ∃ v0 w0, w0.trace = [] ∧ w0.info.vals = none ∧
      ∀ prm, nlcg ops prm fuel rank w = cgLoop ops prm fuel rank prm.maxiter.toNat 0 v0 w0 := by
  unfold nlcg
  simp only [FM.bind_apply, FM.modify_apply, liftOp]
  cases (ops.construct w.s).1 with
  | throw e => exact .inl ⟨_, _, by simp, fun _ => rfl⟩
  | ub => exact .inl ⟨_, _, by simp, fun _ => rfl⟩
  | abort => exact .inl ⟨_, _, by simp, fun _ => rfl⟩
  | ok _ =>
  simp only
  cases (ops.setup (ops.construct w.s).2).1 with
  | throw e => exact .inl ⟨_, _, by simp, fun _ => rfl⟩
  | ub => exact .inl ⟨_, _, by simp, fun _ => rfl⟩
  | abort => exact .inl ⟨_, _, by simp, fun _ => rfl⟩
  | ok pt =>
  simp only
  cases (ops.restarted pt (ops.setup (ops.construct w.s).2).2).1 with
  | throw e => exact .inl ⟨_, _, by simp, fun _ => rfl⟩
  | ub => exact .inl ⟨_, _, by simp, fun _ => rfl⟩
  | abort => exact .inl ⟨_, _, by simp, fun _ => rfl⟩
  | ok q =>
  exact .inr ⟨_, _, rfl, rfl, fun _ => rfl⟩

theorem tol_run (g : GrowOps ops le) (hp : PlainOutput ops) (prm : NlcgParams ℝ) {tol : ℝ} (ht : tol ≤ prm.tol)
    (fuel rank : ℕ) (w : NState ℝ σ) :
    TolOut le (nlcg ops prm fuel rank w) (nlcg ops { prm with tol := tol } fuel rank w) := by
  rcases nlcg_head ops fuel rank w with ⟨o, v, -, h⟩ | ⟨v0, w0, -, -, h⟩
  · rw [h, h]
    exact .same _
  · rw [h, h]
    exact tol_loop g hp prm ht fuel rank _ 0 v0 w0

/-- the record is that of the last report -/
def Tells (w : NState ℝ σ) : Prop :=
  w.info.vals = (reports w.trace).getLast?.map fun r => ⟨r.2.2.2 + -1, r.2.1, r.2.2.1, r.1⟩

/-- keeping that -/
def TellsLe (w v : NState ℝ σ) : Prop := Tells w → Tells v

theorem TellsLe.of_eq {w v : NState ℝ σ} (h1 : v.info.vals = w.info.vals) (h2 : reports v.trace = reports w.trace) :
    TellsLe w v := by
  intro h
  rw [Tells, h1, h2]
  exact h

theorem TellsLe.trans (w v u : NState ℝ σ) (h : TellsLe w v) (h' : TellsLe v u) : TellsLe w u := fun k => h' (h k)

theorem tells_fm {β : Type} {m : FM (NState ℝ σ) β}
    (h : ∀ w z, m w = some z → z.2.info.vals = w.info.vals ∧ reports z.2.trace = reports w.trace) :
    GrowsBy TellsLe m := fun w z hz => .of_eq (h w z hz).1 (h w z hz).2

theorem tells_still {β : Type} {m : FM (NState ℝ σ) β} (h : ∀ w z, m w = some z → z.2 = w) : GrowsBy TellsLe m :=
  tells_fm fun w z hz => by rw [h w z hz]; exact ⟨rfl, rfl⟩

theorem tells_lift {β : Type} (f : σ → Res β × σ) : GrowsBy TellsLe (liftOp (α := ℝ) f) :=
  tells_fm fun w z hz => by rw [liftOp] at hz; cases hz; exact ⟨rfl, rfl⟩

theorem tells_emit {e : Ev ℝ} (h : reports [e] = []) : GrowsBy TellsLe (emit (σ := σ) e) :=
  tells_fm fun w z hz => by
    rw [emit, FM.modify_apply] at hz
    cases hz
    exact ⟨rfl, by simp only [reports_append, h, List.append_nil]⟩

theorem tells_report (i : ℕ) (slope : ℝ) : GrowsBy TellsLe (setInfo ops i slope) := by
  intro w z hz
  rw [setInfo, FM.modify_apply] at hz
  cases hz
  intro _
  simp only [Tells, printInfo, reports_append, reports]
  simp [Arith.add, Arith.lit]

theorem tells_json (rank i : ℕ) (slope : ℝ) (p : ρ) : GrowsBy TellsLe (writeJson ops rank i slope p) :=
  tells_fm fun w z hz => by rw [writeJson] at hz; cases hz; exact ⟨rfl, rfl⟩

theorem tells_search (prm : NlcgParams ℝ) (fuel i : ℕ) (v : Vars ℝ ρ δ) :
    GrowsBy TellsLe (runSearch ops prm fuel i v) :=
  tells_fm fun w z hz => by
    unfold runSearch at hz
    generalize lineSearch (⟨ops.geo v.pt v.dir, ops.getF⟩ : LSEnv ℝ σ ρ) _ _ _ _ = q at hz
    match q with
    | none => simp at hz
    | some (.ok r, t) => cases hz; exact ⟨rfl, by simp only [reports_append, reports, List.append_nil]⟩
    | some (.throw e, t) => cases hz; exact ⟨rfl, by simp only [reports_append, reports, List.append_nil]⟩
    | some (.ub, t) => cases hz; exact ⟨rfl, rfl⟩
    | some (.abort, t) => cases hz; exact ⟨rfl, rfl⟩

theorem tells_steepest (i : ℕ) (p : ρ) : GrowsBy TellsLe (callRestarted ops i p) := by
  unfold callRestarted
  refine (tells_lift _).bind TellsLe.trans fun r => ?_
  exact (tells_emit rfl).bind TellsLe.trans fun _ => tells_still fun w z hz => by
    rw [FM.pure_apply] at hz; cases hz; rfl

theorem tells_body (prm : NlcgParams ℝ) (fuel rank i : ℕ) (v : Vars ℝ ρ δ) :
    GrowsBy TellsLe (cgBody ops prm fuel rank i v) := by
  have hpure : ∀ {β : Type} (r : β), GrowsBy (TellsLe (σ := σ)) (pure r) := fun r => tells_still fun w z hz => by
    rw [FM.pure_apply] at hz; cases hz; rfl
  unfold cgBody
  refine (tells_json _ _ _ _).bind TellsLe.trans fun _ => ?_
  refine (tells_report _ _).bind TellsLe.trans fun _ => ?_
  refine (tells_lift _).bind TellsLe.trans fun _ => ?_
  refine (tells_search _ _ _ _).bind TellsLe.trans fun _ => ?_
  refine (tells_lift _).bind TellsLe.trans fun _ => ?_
  split
  · exact tells_still fun w z hz => by rw [FM.ub_apply] at hz; cases hz; rfl
  refine GrowsBy.bind TellsLe.trans (tells_still fun w z hz => by rw [FM.get_apply] at hz; cases hz; rfl) fun _ => ?_
  split
  · exact tells_steepest _ _
  refine (tells_lift _).bind TellsLe.trans fun q => ?_
  refine (tells_emit rfl).bind TellsLe.trans fun _ => ?_
  split
  · refine (tells_steepest _ _).bind TellsLe.trans fun _ => ?_
    refine GrowsBy.bind TellsLe.trans (tells_fm fun w z hz => ?_) fun _ => hpure _
    rw [FM.modify_apply] at hz
    cases hz
    exact ⟨rfl, rfl⟩
  · exact hpure _

theorem tells_pure {β : Type} (r : β) : GrowsBy (TellsLe (σ := σ)) (pure r) := tells_still fun w z hz => by
  rw [FM.pure_apply] at hz; cases hz; rfl

theorem tells_get : GrowsBy (TellsLe (σ := σ)) FM.get := tells_still fun w z hz => by
  rw [FM.get_apply] at hz; cases hz; rfl

theorem tells_throw {β : Type} (e : Exc) : GrowsBy (TellsLe (σ := σ)) (FM.throw e : FM _ β) :=
  tells_still fun w z hz => by rw [FM.throw_apply] at hz; cases hz; rfl

theorem tells_success (rank i : ℕ) (v : Vars ℝ ρ δ) : GrowsBy TellsLe (cgSuccess ops rank i v) := by
  unfold cgSuccess
  refine (tells_report _ _).bind TellsLe.trans fun _ => ?_
  refine (tells_json _ _ _ _).bind TellsLe.trans fun _ => ?_
  refine (tells_lift _).bind TellsLe.trans fun _ => ?_
  refine GrowsBy.bind TellsLe.trans (tells_fm fun w z hz => ?_) fun _ => ?_
  · rw [FM.modify_apply] at hz
    cases hz
    exact ⟨rfl, rfl⟩
  · exact tells_get.bind TellsLe.trans fun _ => tells_pure _

theorem tells_loop (prm : NlcgParams ℝ) (fuel rank : ℕ) : ∀ (n i : ℕ) (v : Vars ℝ ρ δ),
    GrowsBy TellsLe (cgLoop ops prm fuel rank n i v)
  | 0, i, v => by
    unfold cgLoop
    exact tells_get.bind TellsLe.trans fun _ => tells_pure _
  | n + 1, i, v => by
    unfold cgLoop
    refine (tells_emit rfl).bind TellsLe.trans fun _ => ?_
    split
    · exact tells_success _ _ _
    · refine (tells_body _ _ _ _ _).attempt.bind TellsLe.trans fun r => ?_
      cases r with
      | ok v' => exact tells_loop prm fuel rank n (i + 1) v'
      | error e =>
        cases e
        all_goals first
          | exact tells_throw _
          | exact tells_get.bind TellsLe.trans fun _ => tells_pure _

theorem loop_info {prm : NlcgParams ℝ} {fuel rank n i : ℕ} {v : Vars ℝ ρ δ} {w : NState ℝ σ} {o : Res (Info ℝ)}
    {w' : NState ℝ σ} (h : LoopRun ops prm fuel rank n i v w o w') : ∀ info, o = .ok info → info = w'.info := by
  have hf : ∀ {β : Type} {o : Res β} {info : Info ℝ}, o.isOk = false → o.fail ≠ .ok info := by
    intro β o info h h'
    cases o <;> simp [Res.isOk, Res.fail] at h h'
  induction h with
  | limit => intro info h; cases h; rfl
  | success => intro info h; cases h; rfl
  | successJson n i v w o s1 f h1 h2 h3 => intro info h; exact absurd h (hf h3)
  | successPrint n i v w s1 f o s2 h1 h2 h3 h4 => intro info h; exact absurd h (hf h4)
  | step n i v w v' w1 o w' h1 h2 h3 ih => exact ih
  | caught => intro info h; cases h; rfl
  | uncaught n i v w o w1 h1 h2 h3 h4 => intro info h; exact absurd h (hf h3)

/-- the record that is returned is that of the last report -/
theorem returned_info {prm : NlcgParams ℝ} {fuel rank : ℕ} {w w' : NState ℝ σ} {info : Info ℝ}
    (h : nlcg ops prm fuel rank w = some (.ok info, w')) :
    info.vals = (reports w'.trace).getLast?.map fun r => ⟨r.2.2.2 + -1, r.2.1, r.2.2.1, r.1⟩ := by
  rcases nlcg_head ops fuel rank w with ⟨o, v, ho, hh⟩ | ⟨v0, w0, ht, hi, hh⟩
  · rw [hh] at h
    cases h
    exact absurd rfl (ho _)
  · rw [hh] at h
    rw [loop_info (cgLoop_run _ _ _ _ _ _ _ _ _ _ h) info rfl]
    exact tells_loop _ _ _ _ _ _ _ _ h (by rw [Tells, ht, hi]; rfl)

end Nlcg
