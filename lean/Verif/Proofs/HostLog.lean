import Verif.Spec.HostError
import Verif.Proofs.Simulation
import Verif.Proofs.SolverRun

/-! A host that records its calls is as good as the host itself. -/

namespace Nlcg
open Arith Spec

variable {K : ℕ} {n b : Fin K → ℕ} {η : Type} {host : Host η n b} {c : Cfg n b}

theorem withLog_keeps (host : Host η n b) : KeepsLog (withLog host) Prod.snd :=
  ⟨fun _ => rfl, fun _ _ => rfl, fun _ _ => rfl, fun _ _ => rfl, fun _ => rfl, fun _ => rfl⟩

/-- the state without the record -/
def bare (s : SState (η × List Bool) n b) : SState η n b := { s with h := s.h.1 }

/-- states that differ by the record -/
def logWorld (η : Type) (n b : Fin K → ℕ) : World (SState (η × List Bool) n b) (SState η n b) where
  R s s' := s' = bare s
  le _ _ := True
  refl _ := trivial
  trans _ _ := trivial

/-- the same outcome, and the same state but for the record -/
abbrev LogOut {β : Type} (x : Res β × SState (η × List Bool) n b) (y : Res β × SState η n b) : Prop :=
  y = (x.1, bare x.2)

theorem LogOut.bind {β γ : Type} {m : SM (SState (η × List Bool) n b) β} {m' : SM (SState η n b) β}
    {f : β → SM (SState (η × List Bool) n b) γ} {f' : β → SM (SState η n b) γ} {s : SState (η × List Bool) n b}
    {s' : SState η n b} (h : LogOut (m s) (m' s')) (hf : ∀ r t, LogOut (f r t) (f' r (bare t))) :
    LogOut ((m >>= f) s) ((m' >>= f') s') := by
  rw [SM.bind_apply, SM.bind_apply]
  rw [LogOut] at h
  rw [h]
  rcases m s with ⟨_ | _ | _ | _, t⟩
  · exact hf _ t
  all_goals rfl

theorem logCall {β : Type} (k : HostCall n b) {f : η × List Bool → Option β × η × List Bool} {f' : η → Option β × η}
    (h : ∀ x, (f x).1 = (f' x.1).1 ∧ (f x).2.1 = (f' x.1).2) (s : SState (η × List Bool) n b) :
    LogOut (hostCall k f s) (hostCall k f' (bare s)) := by
  obtain ⟨h1, h2⟩ := h s.h
  rw [hostCall, hostCall, show (bare s).h = s.h.1 from rfl]
  generalize f s.h = q at h1 h2 ⊢
  generalize f' s.h.1 = q' at h1 h2 ⊢
  obtain ⟨o, x, l⟩ := q
  obtain ⟨o', x'⟩ := q'
  simp only at h1 h2
  subst h1 h2
  cases o <;> rfl

theorem logEvaluate (X : Orbitals n b) (fn en : Bands b) (mu : ℝ) (s : SState (η × List Bool) n b) :
    LogOut (evaluate (withLog host) c X fn en mu s) (evaluate host c X fn en mu (bare s)) := by
  rw [evaluate, evaluate]
  refine LogOut.bind (logCall _ (fun _ => ⟨rfl, rfl⟩) s) fun _ s => ?_
  refine LogOut.bind (logCall _ (fun _ => ⟨rfl, rfl⟩) s) fun _ s => ?_
  refine LogOut.bind (logCall _ (fun _ => ⟨rfl, rfl⟩) s) fun _ s => ?_
  refine LogOut.bind (logCall _ (fun _ => ⟨rfl, rfl⟩) s) fun _ s => ?_
  exact LogOut.bind (logCall _ (fun _ => ⟨rfl, rfl⟩) s) fun _ s => rfl

theorem logSetup (s : SState (η × List Bool) n b) :
    LogOut (solverSetup (withLog host) c s) (solverSetup host c (bare s)) := by
  rw [solverSetup, solverSetup]
  refine LogOut.bind (logCall _ (fun _ => ⟨rfl, rfl⟩) s) fun _ s => ?_
  rw [SM.get_bind, SM.get_bind]
  refine LogOut.bind (m := SM.lift _) (m' := SM.lift _) rfl fun q s => ?_
  obtain ⟨mu, f⟩ := q
  simp only
  rw [SM.get_bind, SM.get_bind]
  refine LogOut.bind (logEvaluate _ _ _ _ s) fun _ s => ?_
  rw [SM.get_bind, SM.get_bind]
  rfl

theorem logGeo (p : Point n b) (d : Dir n b) (t : ℝ) (s : SState (η × List Bool) n b) :
    LogOut (solverGeo (withLog host) c p d t s) (solverGeo host c p d t (bare s)) := by
  rw [solverGeo, solverGeo]
  refine LogOut.bind (m := SM.lift _) (m' := SM.lift _) rfl fun g s => ?_
  refine LogOut.bind (m := SM.lift _) (m' := SM.lift _) rfl fun q s => ?_
  exact LogOut.bind (logEvaluate _ _ _ _ s) fun _ s => rfl

theorem LogOut.out {β : Type} {Q : SState (η × List Bool) n b → β → β → Prop} (hQ : ∀ t a, Q t a a)
    {s : SState (η × List Bool) n b} {x : Res β × SState (η × List Bool) n b} {y : Res β × SState η n b}
    (h : LogOut x y) : Out (logWorld η n b) Q s x y := by
  subst h
  obtain ⟨o, t⟩ := x
  refine ⟨rfl, trivial, ?_⟩
  cases o with
  | ok r => exact .ok (hQ _ _)
  | throw e => exact .throw e
  | ub => exact .ub
  | abort => exact .abort

/-- the record does not matter -/
def logSim (host : Host η n b) (c : Cfg n b) : Spec.Sim (solverOps (withLog host) c) (solverOps host c) where
  W := logWorld η n b
  P0 _ p p' := p = p'
  P _ p p' := p = p'
  D _ d d' := d = d'
  weaken h := h
  P0_mono _ h := h
  P_mono _ h := h
  D_mono _ h := h
  construct hR := by subst hR; exact LogOut.out (fun _ _ => trivial) rfl
  setup hR := by subst hR; exact LogOut.out (fun _ _ => rfl) (logSetup _)
  restarted hR hp := by subst hR hp; exact LogOut.out (fun _ _ => ⟨rfl, rfl⟩) rfl
  conjugated fr hR hp hd := by subst hR hp hd; exact LogOut.out (fun _ _ => ⟨rfl, rfl, rfl⟩) rfl
  geo t hR hp hd := by subst hR hp hd; exact LogOut.out (fun _ _ => rfl) (logGeo _ _ _ _)
  refresh hR hp := by subst hR hp; exact LogOut.out (fun _ _ => rfl) rfl
  gather hR hp := by subst hR hp; exact LogOut.out (fun _ _ => trivial) rfl
  hostPrint hR := by subst hR; exact LogOut.out (fun _ _ => trivial) (logCall _ (fun _ => ⟨rfl, rfl⟩) _)
  getF hR := by subst hR; rfl
  getS hR := by subst hR; rfl

theorem log_run (prm : NlcgParams ℝ) (fuel rank : ℕ) (w : NState ℝ (SState (η × List Bool) n b)) :
    solve host c prm fuel rank (withoutLog w)
      = (solve (withLog host) c prm fuel rank w).map fun q => (q.1, withoutLog q.2) := by
  have := nlcg_rel (logSim host c) prm fuel rank (w := w) (w' := withoutLog w) ⟨rfl, rfl, rfl, rfl, rfl⟩
  rw [solve, solve]
  generalize nlcg (solverOps (withLog host) c) prm fuel rank w = x at this ⊢
  generalize nlcg (solverOps host c) prm fuel rank (withoutLog w) = y at this ⊢
  cases this with
  | none => rfl
  | some h =>
    rename_i x y
    obtain ⟨o, v⟩ := x
    obtain ⟨o', v'⟩ := y
    obtain ⟨⟨h1, h2, h3, h4, h5⟩, -, h6⟩ := h
    simp only [Option.map_some, Option.some.injEq, Prod.mk.injEq]
    refine ⟨?_, ?_⟩
    · cases h6 with
      | ok h => rw [h]
      | _ => rfl
    · obtain ⟨s, f, i, g, t⟩ := v
      obtain ⟨s', f', i', g', t'⟩ := v'
      simp only at h1 h2 h3 h4 h5
      subst h2 h3 h4 h5
      rw [show s' = bare s from h1]
      rfl

end Nlcg
