import Verif.Proofs.Hoare
import Verif.Proofs.LineSearch
import Verif.Spec.Run

/-! Helper lemmas about the driver. -/

namespace Nlcg
open Arith
variable {α σ ρ δ : Type} [Arith α]

/-- Not one of the two exceptions that the driver catches. -/
def Res.Clean {β : Type} (o : Res β) : Prop := o ≠ .throw .slopeError ∧ o ≠ .throw .descentError

/-- The two exceptions that the driver catches are thrown by the line search only
(`src/linesearch/linesearch.hpp` is the only place where they are thrown). -/
structure Ops.Clean (ops : Ops α σ ρ δ) : Prop where
  construct : ∀ s, (ops.construct s).1.Clean
  setup : ∀ s, (ops.setup s).1.Clean
  restarted : ∀ pt s, (ops.restarted pt s).1.Clean
  conjugated : ∀ fr pt dir s, (ops.conjugated fr pt dir s).1.Clean
  geo : ∀ pt dir t s, (ops.geo pt dir t s).1.Clean
  refresh : ∀ pt s, (ops.refresh pt s).1.Clean
  gather : ∀ pt s, (ops.gather pt s).1.Clean
  hostPrint : ∀ s, (ops.hostPrint s).1.Clean

theorem failedEval_not {env : LSEnv α σ ρ} {e : Exc} (h : ∀ t s, (env.G t s).1 ≠ .throw e)
    (st : LSState α σ) : ¬ FailedEval env (.throw e : Res ρ) st := by
  rintro ⟨t, s0, ⟨e', he, hg⟩ | ⟨he, -⟩ | ⟨he, -⟩⟩
  · cases he; exact h t s0 (by rw [hg])
  · simp at he
  · simp at he

theorem qline_flag {env : LSEnv α σ ρ} {p : LSParams α} {fuel : Nat} {slope : α}
    {st stm : LSState α σ} {e : Exc} (h1 : qline env p fuel slope st = some (.throw e, stm)) :
    stm.forceRestart = st.forceRestart := by
  rcases (qline_spec env p fuel slope st stm _ h1).2 with ⟨r', hr, -⟩ | ⟨-, h3, -⟩ | ⟨-, h3, -⟩
  · simp at hr
  · exact h3
  · exact h3

/-- Summary of one line search: what the flag and the exception say. -/
theorem lineSearch_flags (env : LSEnv α σ ρ) (p : LSParams α) (fuel : Nat) (slope : α)
    (st st' : LSState α σ) (o : Res ρ)
    (hG : ∀ t s, (env.G t s).1.Clean)
    (h : lineSearch env p fuel slope st = some (o, st')) :
    (o = .throw .slopeError → (lit 0 <ᶠ slope) = true ∧ st' = st) ∧
    (o = .throw .descentError → (lit 0 <ᶠ slope) = false ∧ st.forceRestart = true) ∧
    (∀ r, o = .ok r → (lit 0 <ᶠ slope) = false ∧ (st.forceRestart = true → st'.forceRestart = false)) := by
  have hs := fun st => failedEval_not (env := env) (fun t s => (hG t s).1) st
  have hd := fun st => failedEval_not (env := env) (fun t s => (hG t s).2) st
  rcases lineSearch_inv env p fuel slope st st' _ h with ⟨h0, rfl, rfl⟩ | ⟨h0, ⟨h1, _⟩ | ⟨stm, h1, h2⟩⟩
  · exact ⟨fun _ => ⟨h0, rfl⟩, by simp, by simp⟩
  · rcases (qline_spec env p fuel slope st st' _ h1).2 with ⟨r', rfl, -, -, h4⟩ | ⟨rfl, -⟩ | ⟨h4, -, h3⟩
    · exact ⟨by simp, by simp, fun r _ => ⟨h0, fun _ => h4⟩⟩
    · exact ⟨by simp, by simp, by simp⟩
    · refine ⟨?_, ?_, fun r hr => absurd hr (h4 r)⟩
      · rintro rfl; exact absurd h3 (hs _)
      · rintro rfl; exact absurd h3 (hd _)
  · have hflag := qline_flag h1
    rcases btSearch_spec env p fuel _ stm st' _ h2 with ⟨_, rfl, _⟩ | ⟨_, k, stn, hk, hk2, hc⟩
    · exact ⟨by simp, by simp, by simp⟩
    · rcases hc with ⟨r', rfl, rfl, -, -, h5, -⟩ | ⟨-, h4, ⟨h5, rfl, rfl⟩ | ⟨h5, h6⟩⟩ | ⟨-, -, h4, h5⟩
      · exact ⟨by simp, by simp, fun r _ => ⟨h0, fun _ => h5⟩⟩
      · exact ⟨by simp, fun _ => ⟨h0, hflag ▸ h5⟩, by simp⟩
      · obtain ⟨g1, -⟩ := evalG_ok h6
        rw [hflag] at h5
        refine ⟨?_, ?_, fun r _ => ⟨h0, by simp [h5]⟩⟩
        · rintro rfl; exact absurd (by rw [g1]) (hG (lit 0) stn.s).1
        · rintro rfl; exact absurd (by rw [g1]) (hG (lit 0) stn.s).2
      · refine ⟨?_, ?_, fun r hr => absurd hr (h4 r)⟩
        · rintro rfl; exact absurd h5 (hs _)
        · rintro rfl; exact absurd h5 (hd _)

/-- outcome of the step log call of iteration `i`, new backend state, new file -/
def JsonRun (ops : Ops α σ ρ δ) (rank i : Nat) (slope : α) (pt : ρ) (w : NState α σ)
    (o : Res Unit) (s' : σ) (file' : List (JsonRec α)) : Prop :=
  (o, s') = (if i % 10 = 0 then ops.gather pt w.s else (.ok (), w.s)) ∧
  file' = if rank = 0 then w.file ++ [{ step := i, F := ops.getF w.s, entropy := ops.getS w.s, slope := slope, bands := decide (i % 10 = 0) && decide (o = .ok ()) }] else w.file

theorem wp_writeJson (ops : Ops α σ ρ δ) (rank i : Nat) (slope : α) (pt : ρ)
    (Q : Res Unit → NState α σ → Prop) (w : NState α σ)
    (h : ∀ o s' file', JsonRun ops rank i slope pt w o s' file' →
      Q o { w with s := s', file := file' }) :
    FM.wp (writeJson ops rank i slope pt) Q w := by
  intro o w' hr
  rw [writeJson] at hr
  simp only [Option.some.injEq, Prod.mk.injEq] at hr
  obtain ⟨rfl, rfl⟩ := hr
  exact h _ _ _ ⟨rfl, rfl⟩

/-- a failure, seen at another type -/
def Res.fail {β γ : Type} : Res β → Res γ
  | .ok _ => .ub
  | .throw e => .throw e
  | .ub => .ub
  | .abort => .abort

def Res.isOk {β : Type} : Res β → Bool
  | .ok _ => true
  | _ => false

/-- state when the line search of iteration `i` starts -/
def searchStart (ops : Ops α σ ρ δ) (i : Nat) (slope : α) (w : NState α σ) (s1 s2 : σ)
    (file' : List (JsonRec α)) : NState α σ :=
  { s := s2, file := file', info := printInfo (ops.getF s1) (ops.getS s1) slope i,
    force := w.force, trace := w.trace ++ [.report i (ops.getF s1) (ops.getS s1) slope] }

/-- All ways in which an iteration can go on after its line search returned `r`: outcome, events,
backend state, restart flag. -/
inductive DirRun (ops : Ops α σ ρ δ) (prm : NlcgParams α) (i : Nat) (v : Vars α ρ δ) (r : ρ)
    (st : LSState α σ) : Res (Vars α ρ δ) → List (Ev α) → σ → Bool → Prop
  | refresh (o : Res ρ) (s4 : σ) : ops.refresh r st.s = (o, s4) → o.isOk = false →
      DirRun ops prm i v r st o.fail [] s4 st.forceRestart
  | ub (pt : ρ) (s4 : σ) : ops.refresh r st.s = (.ok pt, s4) → prm.restart = 0 →
      DirRun ops prm i v r st .ub [] s4 st.forceRestart
  | steepestFail (pt : ρ) (s4 : σ) (o : Res (α × δ)) (s5 : σ) :
      ops.refresh r st.s = (.ok pt, s4) → prm.restart ≠ 0 →
      (prm.restart ∣ (i : Int) ∨ st.forceRestart = true) →
      ops.restarted pt s4 = (o, s5) → o.isOk = false →
      DirRun ops prm i v r st o.fail [] s5 st.forceRestart
  | steepest (pt : ρ) (s4 : σ) (sl : α) (dir : δ) (s5 : σ) :
      ops.refresh r st.s = (.ok pt, s4) → prm.restart ≠ 0 →
      (prm.restart ∣ (i : Int) ∨ st.forceRestart = true) →
      ops.restarted pt s4 = (.ok (sl, dir), s5) →
      DirRun ops prm i v r st (.ok { pt := pt, dir := dir, slope := sl, fr := sl })
        [.steepest i sl] s5 st.forceRestart
  | conjugateFail (pt : ρ) (s4 : σ) (o : Res (α × α × δ)) (s5 : σ) :
      ops.refresh r st.s = (.ok pt, s4) → prm.restart ≠ 0 →
      ¬ prm.restart ∣ (i : Int) → st.forceRestart = false →
      ops.conjugated v.fr pt v.dir s4 = (o, s5) → o.isOk = false →
      DirRun ops prm i v r st o.fail [] s5 st.forceRestart
  | conjugate (pt : ρ) (s4 : σ) (fr sl : α) (dir : δ) (s5 : σ) :
      ops.refresh r st.s = (.ok pt, s4) → prm.restart ≠ 0 →
      ¬ prm.restart ∣ (i : Int) → st.forceRestart = false →
      ops.conjugated v.fr pt v.dir s4 = (.ok (fr, sl, dir), s5) → (lit 0 <ᶠ sl) = false →
      DirRun ops prm i v r st (.ok { pt := pt, dir := dir, slope := sl, fr := fr })
        [.conjugate i sl] s5 st.forceRestart
  | rejectedFail (pt : ρ) (s4 : σ) (fr c : α) (dir : δ) (s5 : σ) (o : Res (α × δ)) (s6 : σ) :
      ops.refresh r st.s = (.ok pt, s4) → prm.restart ≠ 0 →
      ¬ prm.restart ∣ (i : Int) → st.forceRestart = false →
      ops.conjugated v.fr pt v.dir s4 = (.ok (fr, c, dir), s5) → (lit 0 <ᶠ c) = true →
      ops.restarted pt s5 = (o, s6) → o.isOk = false →
      DirRun ops prm i v r st o.fail [.conjugate i c] s6 st.forceRestart
  | rejected (pt : ρ) (s4 : σ) (fr c : α) (dir : δ) (s5 : σ) (sl : α) (dir6 : δ) (s6 : σ) :
      ops.refresh r st.s = (.ok pt, s4) → prm.restart ≠ 0 →
      ¬ prm.restart ∣ (i : Int) → st.forceRestart = false →
      ops.conjugated v.fr pt v.dir s4 = (.ok (fr, c, dir), s5) → (lit 0 <ᶠ c) = true →
      ops.restarted pt s5 = (.ok (sl, dir6), s6) →
      DirRun ops prm i v r st (.ok { pt := pt, dir := dir6, slope := sl, fr := sl })
        [.conjugate i c, .steepest i sl] s6 true

/-- All ways in which the body of iteration `i` can go. -/
inductive BodyRun (ops : Ops α σ ρ δ) (prm : NlcgParams α) (fuel rank i : Nat) (v : Vars α ρ δ)
    (w : NState α σ) : Res (Vars α ρ δ) → NState α σ → Prop
  | json (o : Res Unit) (s1 : σ) (file' : List (JsonRec α)) :
      JsonRun ops rank i v.slope v.pt w o s1 file' → o.isOk = false →
      BodyRun ops prm fuel rank i v w o.fail { w with s := s1, file := file' }
  | hostPrint (s1 s2 : σ) (file' : List (JsonRec α)) (o : Res Unit) :
      JsonRun ops rank i v.slope v.pt w (.ok ()) s1 file' → ops.hostPrint s1 = (o, s2) →
      o.isOk = false →
      BodyRun ops prm fuel rank i v w o.fail (searchStart ops i v.slope w s1 s2 file')
  | search (s1 s2 : σ) (file' : List (JsonRec α)) (o : Res ρ) (st : LSState α σ) (tr : List (Ev α)) :
      JsonRun ops rank i v.slope v.pt w (.ok ()) s1 file' → ops.hostPrint s1 = (.ok (), s2) →
      lineSearch { G := ops.geo v.pt v.dir, getF := ops.getF }
        { tTrial := lit (2 / 10), tau := prm.tau } fuel v.slope
        { s := s2, forceRestart := w.force, evals := [] } = some (o, st) → o.isOk = false →
      (∀ e, o = .throw e → tr = [.search i w.force, .failed i e]) →
      (o = .ub ∨ o = .abort → tr = []) →
      BodyRun ops prm fuel rank i v w o.fail
        { searchStart ops i v.slope w s1 s2 file' with
          s := st.s, force := st.forceRestart
          trace := (searchStart ops i v.slope w s1 s2 file').trace ++ tr }
  | searched (s1 s2 : σ) (file' : List (JsonRec α)) (r : ρ) (st : LSState α σ)
      (o : Res (Vars α ρ δ)) (dirs : List (Ev α)) (s' : σ) (force' : Bool) :
      JsonRun ops rank i v.slope v.pt w (.ok ()) s1 file' → ops.hostPrint s1 = (.ok (), s2) →
      lineSearch { G := ops.geo v.pt v.dir, getF := ops.getF }
        { tTrial := lit (2 / 10), tau := prm.tau } fuel v.slope
        { s := s2, forceRestart := w.force, evals := [] } = some (.ok r, st) →
      DirRun ops prm i v r st o dirs s' force' →
      BodyRun ops prm fuel rank i v w o
        { searchStart ops i v.slope w s1 s2 file' with
          s := s', force := force'
          trace := (searchStart ops i v.slope w s1 s2 file').trace ++
            ([.search i w.force, .found i st.forceRestart] ++ dirs) }

theorem cgBody_run (ops : Ops α σ ρ δ) (prm : NlcgParams α) (fuel rank i : Nat)
    (v : Vars α ρ δ) (w : NState α σ) :
    FM.wp (cgBody ops prm fuel rank i v) (BodyRun ops prm fuel rank i v w) w := by
  have hdvd : Int.tmod (i : Int) prm.restart = 0 ↔ prm.restart ∣ (i : Int) :=
    Int.dvd_iff_tmod_eq_zero.symm
  rw [cgBody, FM.wp_bind]
  apply wp_writeJson
  intro o s1 file' hj
  cases o with
  | ok u =>
    rw [FM.after_ok, FM.wp_bind, wp_setInfo, FM.after_ok, FM.wp_bind, wp_liftOp]
    rcases hpr : ops.hostPrint s1 with ⟨r2, s2⟩
    simp only [hpr]
    cases r2 with
    | ok u2 =>
      rw [FM.after_ok, FM.wp_bind]
      apply wp_runSearch
      intro o3 st3 hls
      cases o3 with
      | ok r3 =>
        have lift : ∀ o dirs s' force', DirRun ops prm i v r3 st3 o dirs s' force' → _ :=
          fun o dirs s' force' h => BodyRun.searched s1 s2 file' r3 st3 o dirs s' force' hj hpr hls h
        simp only
        rw [FM.after_ok, FM.wp_bind, wp_liftOp]
        rcases hre : ops.refresh r3 st3.s with ⟨r4, s4⟩
        simp only [hre]
        cases r4 with
        | ok pt =>
          rw [FM.after_ok]
          split
          · next hrest =>
            rw [FM.wp_ub]
            simpa [searchStart, Res.fail] using lift _ _ _ _ (.ub pt s4 hre hrest)
          · next hrest =>
            rw [FM.wp_bind, FM.wp_get, FM.after_ok]
            split
            · next hcond =>
              rw [callRestarted, FM.wp_bind, wp_liftOp]
              rcases hre5 : ops.restarted pt s4 with ⟨r5, s5⟩
              simp only [hre5]
              cases r5 with
              | ok q =>
                obtain ⟨sl, dir⟩ := q
                rw [FM.after_ok]
                simp only
                rw [FM.wp_bind, wp_emit, FM.after_ok, FM.wp_pure]
                simpa [searchStart, Res.fail] using
                  lift _ _ _ _ (.steepest pt s4 sl dir s5 hre hrest (hcond.imp hdvd.1 id) hre5)
              | _ =>
                simpa [searchStart, Res.fail] using
                  lift _ _ _ _ (.steepestFail pt s4 _ s5 hre hrest (hcond.imp hdvd.1 id) hre5 rfl)
            · next hcond =>
              push Not at hcond
              have hff : st3.forceRestart = false := by simpa using hcond.2
              have hnd : ¬ prm.restart ∣ (i : Int) := fun h => hcond.1 (hdvd.2 h)
              rw [FM.wp_bind, wp_liftOp]
              rcases hre5 : ops.conjugated v.fr pt v.dir s4 with ⟨r5, s5⟩
              simp only [hre5]
              cases r5 with
              | ok q =>
                obtain ⟨fr, sl, dir⟩ := q
                rw [FM.after_ok]
                simp only
                rw [FM.wp_bind, wp_emit, FM.after_ok]
                split
                · next hpos =>
                  rw [FM.wp_bind, callRestarted, FM.wp_bind, wp_liftOp]
                  rcases hre6 : ops.restarted pt s5 with ⟨r6, s6⟩
                  simp only [hre6]
                  cases r6 with
                  | ok q6 =>
                    obtain ⟨sl6, dir6⟩ := q6
                    rw [FM.after_ok]
                    simp only
                    rw [FM.wp_bind, wp_emit, FM.after_ok, FM.wp_pure, FM.after_ok, FM.wp_bind,
                      FM.wp_modify, FM.after_ok, FM.wp_pure]
                    simpa [searchStart, Res.fail] using
                      lift _ _ _ _ (.rejected pt s4 fr sl dir s5 sl6 dir6 s6 hre hrest hnd hff hre5 hpos hre6)
                  | _ =>
                    simpa [searchStart, Res.fail] using
                      lift _ _ _ _ (.rejectedFail pt s4 fr sl dir s5 _ s6 hre hrest hnd hff hre5 hpos hre6 rfl)
                · next hpos =>
                  rw [FM.wp_pure]
                  simpa [searchStart, Res.fail] using
                    lift _ _ _ _ (.conjugate pt s4 fr sl dir s5 hre hrest hnd hff hre5 (by simpa using hpos))
              | _ =>
                simpa [searchStart, Res.fail] using
                  lift _ _ _ _ (.conjugateFail pt s4 _ s5 hre hrest hnd hff hre5 rfl)
        | _ => simpa [searchStart, Res.fail] using lift _ _ _ _ (.refresh _ s4 hre rfl)
      | throw e =>
        exact BodyRun.search s1 s2 file' _ st3 [.search i w.force, .failed i e] hj hpr hls rfl
          (by intro e' he'; cases he'; rfl) (by simp)
      | _ =>
        simpa [searchStart, Res.fail] using BodyRun.search s1 s2 file' _ st3 [] hj hpr hls rfl (by simp) (by simp)
    | _ => exact BodyRun.hostPrint s1 s2 file' _ hj hpr rfl
  | _ => exact BodyRun.json _ s1 file' hj rfl


/-- state right after the loop head of iteration `i` -/
def started (i : Nat) (slope : α) (w : NState α σ) : NState α σ :=
  { w with trace := w.trace ++ [.start i slope] }

/-- state after the report of iteration `i` in the success branch -/
def reported (ops : Ops α σ ρ δ) (i : Nat) (slope : α) (w : NState α σ) : NState α σ :=
  { w with info := printInfo (ops.getF w.s) (ops.getS w.s) slope i
           trace := w.trace ++ [.report i (ops.getF w.s) (ops.getS w.s) slope] }

/-- All ways in which the loop can go. -/
inductive LoopRun (ops : Ops α σ ρ δ) (prm : NlcgParams α) (fuel rank : Nat) :
    Nat → Nat → Vars α ρ δ → NState α σ → Res (Info α) → NState α σ → Prop
  | limit (i : Nat) (v : Vars α ρ δ) (w : NState α σ) :
      LoopRun ops prm fuel rank 0 i v w (.ok w.info) w
  | success (n i : Nat) (v : Vars α ρ δ) (w : NState α σ) (s1 s2 : σ) (file' : List (JsonRec α)) :
      (Arith.abs v.slope <ᶠ prm.tol) = true →
      JsonRun ops rank i v.slope v.pt w (.ok ()) s1 file' → ops.hostPrint s1 = (.ok (), s2) →
      LoopRun ops prm fuel rank (n + 1) i v w
        (.ok { printInfo (ops.getF w.s) (ops.getS w.s) v.slope i with converged := true })
        { s := s2, file := file', force := w.force
          info := { printInfo (ops.getF w.s) (ops.getS w.s) v.slope i with converged := true }
          trace := w.trace ++ [.start i v.slope, .report i (ops.getF w.s) (ops.getS w.s) v.slope] }
  | successJson (n i : Nat) (v : Vars α ρ δ) (w : NState α σ) (o : Res Unit) (s1 : σ)
      (file' : List (JsonRec α)) :
      (Arith.abs v.slope <ᶠ prm.tol) = true →
      JsonRun ops rank i v.slope v.pt w o s1 file' → o.isOk = false →
      LoopRun ops prm fuel rank (n + 1) i v w o.fail
        { s := s1, file := file', force := w.force
          info := printInfo (ops.getF w.s) (ops.getS w.s) v.slope i
          trace := w.trace ++ [.start i v.slope, .report i (ops.getF w.s) (ops.getS w.s) v.slope] }
  | successPrint (n i : Nat) (v : Vars α ρ δ) (w : NState α σ) (s1 : σ)
      (file' : List (JsonRec α)) (o : Res Unit) (s2 : σ) :
      (Arith.abs v.slope <ᶠ prm.tol) = true →
      JsonRun ops rank i v.slope v.pt w (.ok ()) s1 file' → ops.hostPrint s1 = (o, s2) →
      o.isOk = false →
      LoopRun ops prm fuel rank (n + 1) i v w o.fail
        { s := s2, file := file', force := w.force
          info := printInfo (ops.getF w.s) (ops.getS w.s) v.slope i
          trace := w.trace ++ [.start i v.slope, .report i (ops.getF w.s) (ops.getS w.s) v.slope] }
  | step (n i : Nat) (v : Vars α ρ δ) (w : NState α σ) (v' : Vars α ρ δ) (w1 : NState α σ)
      (o : Res (Info α)) (w' : NState α σ) :
      (Arith.abs v.slope <ᶠ prm.tol) = false →
      BodyRun ops prm fuel rank i v (started i v.slope w) (.ok v') w1 →
      LoopRun ops prm fuel rank n (i + 1) v' w1 o w' →
      LoopRun ops prm fuel rank (n + 1) i v w o w'
  | caught (n i : Nat) (v : Vars α ρ δ) (w : NState α σ) (e : Exc) (w1 : NState α σ) :
      (Arith.abs v.slope <ᶠ prm.tol) = false →
      BodyRun ops prm fuel rank i v (started i v.slope w) (.throw e) w1 →
      (e = .descentError ∨ e = .slopeError) →
      LoopRun ops prm fuel rank (n + 1) i v w (.ok w1.info) w1
  | uncaught (n i : Nat) (v : Vars α ρ δ) (w : NState α σ) (o : Res (Vars α ρ δ)) (w1 : NState α σ) :
      (Arith.abs v.slope <ᶠ prm.tol) = false →
      BodyRun ops prm fuel rank i v (started i v.slope w) o w1 →
      o.isOk = false → o.Clean →
      LoopRun ops prm fuel rank (n + 1) i v w o.fail w1

theorem cgSuccess_run (ops : Ops α σ ρ δ) (prm : NlcgParams α) (fuel rank n i : Nat) (v : Vars α ρ δ)
    (w : NState α σ) (h : (Arith.abs v.slope <ᶠ prm.tol) = true) :
    FM.wp (cgSuccess ops rank i v) (LoopRun ops prm fuel rank (n + 1) i v w)
      (started i v.slope w) := by
  rw [cgSuccess, FM.wp_bind, wp_setInfo, FM.after_ok, FM.wp_bind]
  apply wp_writeJson
  intro o s1 file' hj
  have hj' : JsonRun ops rank i v.slope v.pt w o s1 file' := hj
  cases o with
  | ok u =>
    rw [FM.after_ok, FM.wp_bind, wp_liftOp]
    rcases hpr : ops.hostPrint s1 with ⟨r2, s2⟩
    simp only [hpr]
    cases r2 with
    | ok u2 =>
      rw [FM.after_ok, FM.wp_bind, FM.wp_modify, FM.after_ok, FM.wp_bind, FM.wp_get, FM.after_ok, FM.wp_pure]
      simpa [started] using LoopRun.success n i v w s1 s2 file' h hj' hpr
    | _ => simpa [started, Res.fail] using LoopRun.successPrint n i v w s1 file' _ s2 h hj' hpr rfl
  | _ => simpa [started, Res.fail] using LoopRun.successJson n i v w _ s1 file' h hj' rfl

theorem cgLoop_run (ops : Ops α σ ρ δ) (prm : NlcgParams α) (fuel rank : Nat) :
    ∀ (n i : Nat) (v : Vars α ρ δ) (w : NState α σ),
    FM.wp (cgLoop ops prm fuel rank n i v) (LoopRun ops prm fuel rank n i v w) w := by
  intro n
  induction n with
  | zero =>
    intro i v w
    rw [cgLoop, FM.wp_bind, FM.wp_get, FM.after_ok, FM.wp_pure]
    exact .limit i v w
  | succ n ih =>
    intro i v w
    rw [cgLoop, FM.wp_bind, wp_emit, FM.after_ok]
    split
    · next h => exact cgSuccess_run ops prm fuel rank n i v w h
    · next h =>
      have h' : (Arith.abs v.slope <ᶠ prm.tol) = false := by simpa using h
      rw [FM.wp_bind, FM.wp_attempt]
      refine FM.wp_mono (cgBody_run ops prm fuel rank i v (started i v.slope w)) ?_
      intro o w1 hb
      cases o with
      | ok v' =>
        simp only [FM.after_ok]
        exact FM.wp_mono (ih (i + 1) v' w1) fun o w' hl => .step n i v w v' w1 o w' h' hb hl
      | throw e =>
        simp only [FM.after_ok]
        cases e
        case descentError =>
          simp only
          rw [FM.wp_bind, FM.wp_get, FM.after_ok, FM.wp_pure]
          exact .caught n i v w _ w1 h' hb (Or.inl rfl)
        case slopeError =>
          simp only
          rw [FM.wp_bind, FM.wp_get, FM.after_ok, FM.wp_pure]
          exact .caught n i v w _ w1 h' hb (Or.inr rfl)
        all_goals
          simp only
          rw [FM.wp_throw]
          exact .uncaught n i v w _ w1 h' hb rfl ⟨by simp, by simp⟩
      | ub => exact .uncaught n i v w _ w1 h' hb rfl ⟨by simp, by simp⟩
      | abort => exact .uncaught n i v w _ w1 h' hb rfl ⟨by simp, by simp⟩

/-- All ways in which a run can go. -/
inductive NlcgRun (ops : Ops α σ ρ δ) (prm : NlcgParams α) (fuel rank : Nat) (w : NState α σ) :
    Res (Info α) → NState α σ → Prop
  | construct (o : Res Unit) (s1 : σ) : ops.construct w.s = (o, s1) → o.isOk = false →
      NlcgRun ops prm fuel rank w o.fail
        { w with s := s1, info := { vals := none, converged := false }, trace := [] }
  | setup (s1 : σ) (o : Res ρ) (s2 : σ) : ops.construct w.s = (.ok (), s1) →
      ops.setup s1 = (o, s2) → o.isOk = false →
      NlcgRun ops prm fuel rank w o.fail
        { w with s := s2, info := { vals := none, converged := false }, trace := [], file := [] }
  | restarted (s1 : σ) (pt : ρ) (s2 : σ) (o : Res (α × δ)) (s3 : σ) :
      ops.construct w.s = (.ok (), s1) →
      ops.setup s1 = (.ok pt, s2) → ops.restarted pt s2 = (o, s3) → o.isOk = false →
      NlcgRun ops prm fuel rank w o.fail
        { w with s := s3, info := { vals := none, converged := false }, trace := [], file := [] }
  | loop (s1 : σ) (pt : ρ) (s2 : σ) (slope : α) (dir : δ) (s3 : σ) (o : Res (Info α)) (w' : NState α σ) :
      ops.construct w.s = (.ok (), s1) →
      ops.setup s1 = (.ok pt, s2) → ops.restarted pt s2 = (.ok (slope, dir), s3) →
      LoopRun ops prm fuel rank prm.maxiter.toNat 0
        { pt := pt, dir := dir, slope := slope, fr := slope }
        { s := s3, file := [], info := { vals := none, converged := false }, force := false, trace := [] }
        o w' →
      NlcgRun ops prm fuel rank w o w'

theorem nlcg_run (ops : Ops α σ ρ δ) (prm : NlcgParams α) (fuel rank : Nat) (w : NState α σ) :
    FM.wp (nlcg ops prm fuel rank) (NlcgRun ops prm fuel rank w) w := by
  rw [nlcg, FM.wp_bind, FM.wp_modify, FM.after_ok, FM.wp_bind, wp_liftOp]
  rcases h1 : ops.construct w.s with ⟨o1, s1⟩
  simp only [h1]
  cases o1 with
  | ok u =>
    rw [FM.after_ok, FM.wp_bind, FM.wp_modify, FM.after_ok, FM.wp_bind, wp_liftOp]
    rcases h2 : ops.setup s1 with ⟨o2, s2⟩
    simp only [h2]
    cases o2 with
    | ok pt =>
      rw [FM.after_ok, FM.wp_bind, wp_liftOp]
      rcases h3 : ops.restarted pt s2 with ⟨o3, s3⟩
      simp only [h3]
      cases o3 with
      | ok q =>
        obtain ⟨slope, dir⟩ := q
        rw [FM.after_ok]
        simp only
        rw [FM.wp_bind, FM.wp_modify, FM.after_ok]
        exact FM.wp_mono (cgLoop_run ops prm fuel rank _ _ _ _) fun o w' hl =>
          .loop s1 pt s2 slope dir s3 o w' h1 h2 h3 hl
      | _ => exact .restarted s1 pt s2 _ s3 h1 h2 h3 rfl
    | _ => exact .setup s1 _ s2 h1 h2 rfl
  | _ => exact .construct _ s1 h1 rfl

end Nlcg
