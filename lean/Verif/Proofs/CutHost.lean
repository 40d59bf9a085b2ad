import Verif.Proofs.CutShort
import Verif.Proofs.SolverRun

/-! A host that throws from a given call on, beside the same host that does not. -/

namespace Nlcg
open Arith Spec

variable {K : ℕ} {n b : Fin K → ℕ} {η : Type} {host : Host η n b} {c : Cfg n b} {m c0 : ℕ}

/-- the state without the counter -/
def noCount (s : SState (η × ℕ) n b) : SState η n b := { s with h := s.h.1 }

/-- `c0`: number of calls recorded when the run began; `m`: number of calls that do not throw -/
def breakWorld (η : Type) (n b : Fin K → ℕ) (m c0 : ℕ) : CutWorld (SState (η × ℕ) n b) (SState η n b) where
  file := True
  R s s' := s' = noCount s ∧ s.h.2 ≤ m ∧ s.calls.length = c0 + s.h.2
  X s s' := s.calls <+: s'.calls ∧ s.calls.length = c0 + m + 1
  le s t := s.calls <+: t.calls
  refl _ := List.prefix_rfl
  trans _ _ _ h h' := h.trans h'
  mono h h' := ⟨h.1.trans h', h.2⟩

/-- one operation of the backend beside the other -/
structure BreakOp {β : Type} (m c0 : ℕ) (f : SM (SState (η × ℕ) n b) β) (f' : SM (SState η n b) β) : Prop where
  out : ∀ s s', (breakWorld η n b m c0).R s s' → CutOp (breakWorld η n b m c0) (f s) (f' s')
  grow : ∀ s, s.calls <+: (f' s).2.calls

theorem BreakOp.bind {β γ : Type} {f : SM (SState (η × ℕ) n b) β} {f' : SM (SState η n b) β}
    {g : β → SM (SState (η × ℕ) n b) γ} {g' : β → SM (SState η n b) γ} (h : BreakOp m c0 f f')
    (hg : ∀ r, BreakOp m c0 (g r) (g' r)) : BreakOp m c0 (f >>= g) (f' >>= g') := by
  refine ⟨fun s s' hR => ?_, fun s => ?_⟩
  · have k := h.out s s' hR
    rw [SM.bind_apply, SM.bind_apply]
    generalize f s = x at k
    generalize f' s' = y at k
    cases k with
    | same k =>
      rename_i o t t'
      cases o with
      | ok r => exact (hg r).out t t' k
      | throw e => exact .same k
      | ub => exact .same k
      | abort => exact .same k
    | cut k =>
      obtain ⟨o, t'⟩ := y
      refine .cut ?_
      cases o with
      | ok r => exact ⟨k.1.trans ((hg r).grow t'), k.2⟩
      | throw e => exact k
      | ub => exact k
      | abort => exact k
  · have k := h.grow s
    rw [SM.bind_apply]
    generalize f' s = y at k
    obtain ⟨o, t⟩ := y
    cases o with
    | ok r => exact k.trans ((hg r).grow t)
    | throw e => exact k
    | ub => exact k
    | abort => exact k

theorem BreakOp.lift {β : Type} (o : Res β) : BreakOp (n := n) (b := b) (η := η) m c0 (SM.lift o) (SM.lift o) :=
  ⟨fun _ _ hR => .same hR, fun _ => List.prefix_rfl⟩

theorem BreakOp.pure {β : Type} (r : β) :
    BreakOp (n := n) (b := b) (η := η) m c0 (Pure.pure r) (Pure.pure r) :=
  ⟨fun _ _ hR => .same hR, fun _ => List.prefix_rfl⟩

/-- reading the state -/
theorem BreakOp.get {γ : Type} {g : SState (η × ℕ) n b → SM (SState (η × ℕ) n b) γ}
    {g' : SState η n b → SM (SState η n b) γ} (h : ∀ s, BreakOp m c0 (g s) (g' (noCount s))) :
    BreakOp m c0 (SM.get >>= g) (SM.get >>= g') := by
  refine ⟨fun s s' hR => ?_, fun s => ?_⟩
  · rw [SM.get_bind, SM.get_bind]
    have := (h s).out s s' hR
    rw [← hR.1] at this
    exact this
  · exact (h { s with h := (s.h, 0) }).grow s

theorem BreakOp.call {β : Type} (k : HostCall n b) {f : η × ℕ → Option β × η × ℕ} {f' : η → Option β × η}
    (hf : ∀ s, f s = if m ≤ s.2 then (none, s.1, s.2 + 1) else ((f' s.1).1, (f' s.1).2, s.2 + 1)) :
    BreakOp m c0 (hostCall k f) (hostCall k f') := by
  have hg : ∀ s : SState η n b, (hostCall k f' s).2.calls = s.calls ++ [k] := by
    intro s
    rw [hostCall]
    generalize f' s.h = q
    obtain ⟨o, x⟩ := q
    cases o <;> rfl
  refine ⟨fun s s' hR => ?_, fun s => by rw [hg]; exact List.prefix_append _ _⟩
  obtain ⟨rfl, h1, h2⟩ := hR
  by_cases hm : m ≤ s.h.2
  · have e : hostCall k f s
        = (.throw .runtimeError, { s with h := (s.h.1, s.h.2 + 1), calls := s.calls ++ [k] }) := by
      rw [hostCall, hf, if_pos hm]
    rw [e]
    refine .cut ⟨?_, ?_⟩
    · rw [hg]
      exact List.prefix_rfl
    · simp only [List.length_append, List.length_cons, List.length_nil, h2]
      omega
  · rw [hostCall, hostCall, hf, if_neg hm, show (noCount s).h = s.h.1 from rfl]
    generalize f' s.h.1 = q
    obtain ⟨o, x⟩ := q
    have hR : (breakWorld η n b m c0).R { s with h := (x, s.h.2 + 1), calls := s.calls ++ [k] }
        { noCount s with h := x, calls := (noCount s).calls ++ [k] } := by
      refine ⟨rfl, ?_, ?_⟩
      · simp only; omega
      · simp only [List.length_append, List.length_cons, List.length_nil, h2]; omega
    cases o <;> exact .same hR

theorem break_evaluate (X : Orbitals n b) (fn en : Bands b) (mu : ℝ) :
    BreakOp m c0 (evaluate (breaksAt m host) c X fn en mu) (evaluate host c X fn en mu) := by
  rw [evaluate, evaluate]
  refine (BreakOp.call _ fun _ => rfl).bind fun _ => ?_
  refine (BreakOp.call _ fun _ => rfl).bind fun _ => ?_
  refine (BreakOp.call _ fun _ => rfl).bind fun _ => ?_
  refine (BreakOp.call _ fun _ => rfl).bind fun _ => ?_
  refine (BreakOp.call _ fun _ => rfl).bind fun etot => ?_
  exact ⟨fun s s' hR => .same ⟨by rw [hR.1]; rfl, hR.2⟩, fun _ => List.prefix_rfl⟩

theorem break_setup : BreakOp m c0 (solverSetup (breaksAt m host) c) (solverSetup host c) := by
  rw [solverSetup, solverSetup]
  refine (BreakOp.call _ fun _ => rfl).bind fun _ => ?_
  refine BreakOp.get fun s => ?_
  refine BreakOp.bind (f := SM.lift _) (f' := SM.lift _) (BreakOp.lift (c.occ (host.ek s.h.1))) fun q => ?_
  obtain ⟨mu, f⟩ := q
  refine BreakOp.get fun s => ?_
  refine BreakOp.bind (break_evaluate _ _ _ _) fun _ => ?_
  exact BreakOp.get fun s => BreakOp.pure _

theorem break_geo (p : Point n b) (d : Dir n b) (t : ℝ) :
    BreakOp m c0 (solverGeo (breaksAt m host) c p d t) (solverGeo host c p d t) := by
  rw [solverGeo, solverGeo]
  refine (BreakOp.lift _).bind fun g => ?_
  refine (BreakOp.lift _).bind fun q => ?_
  exact (break_evaluate _ _ _ _).bind fun _ => BreakOp.pure _

theorem break_restarted (p : Point n b) :
    BreakOp m c0 (solverRestarted (breaksAt m host) c p) (solverRestarted host c p) := by
  rw [solverRestarted, solverRestarted]
  exact BreakOp.get fun s => BreakOp.pure _

theorem break_conjugated (fr : ℝ) (p : Point n b) (d : Dir n b) :
    BreakOp m c0 (solverConjugated (breaksAt m host) c fr p d) (solverConjugated host c fr p d) := by
  rw [solverConjugated, solverConjugated]
  exact BreakOp.get fun s => BreakOp.pure _

theorem break_refresh (p : Point n b) :
    BreakOp m c0 (solverRefresh (breaksAt m host) p) (solverRefresh host p) := by
  rw [solverRefresh, solverRefresh]
  exact BreakOp.get fun s => BreakOp.pure _

theorem break_print : BreakOp (n := n) (b := b) m c0 (hostCall .print (breaksAt m host).print) (hostCall .print host.print) :=
  BreakOp.call _ fun _ => rfl

/-- the calls recorded never become fewer -/
theorem solver_grows (host : Host η n b) (c : Cfg n b) :
    GrowOps (solverOps host c) fun s t => s.calls <+: t.calls where
  refl _ := List.prefix_rfl
  trans _ _ _ h h' := h.trans h'
  setup := (break_setup (m := 0) (c0 := 0)).grow
  restarted p := (break_restarted (m := 0) (c0 := 0) p).grow
  conjugated fr p d := (break_conjugated (m := 0) (c0 := 0) fr p d).grow
  geo p d t := (break_geo (m := 0) (c0 := 0) p d t).grow
  refresh p := (break_refresh (m := 0) (c0 := 0) p).grow
  gather _ _ := List.prefix_rfl
  print := (break_print (m := 0) (c0 := 0)).grow

theorem break_ops (host : Host η n b) (c : Cfg n b) (m c0 : ℕ) :
    CutOps (solverOps (breaksAt m host) c) (solverOps host c) (breakWorld η n b m c0) where
  construct s s' hR := ⟨rfl, hR⟩
  setup := break_setup.out
  restarted p := (break_restarted p).out
  conjugated fr p d := (break_conjugated fr p d).out
  geo p d t := (break_geo p d t).out
  refresh p := (break_refresh p).out
  gather _ _ _ hR := .same hR
  gather_file _ _ _ _ _ := rfl
  print := break_print.out
  getF _ _ hR := by rw [hR.1]; rfl
  getS _ _ hR := by rw [hR.1]; rfl
  grow := solver_grows host c

end Nlcg
