import Verif.Proofs.GaugeLin
import Verif.Proofs.Below
import Verif.Proofs.MemSolver
import Verif.Proofs.Solver
import Verif.Proofs.SolverRun
import Verif.Proofs.Represent

/-! Runs in another gauge. -/

namespace Nlcg
open Matrix Spec ComplexOrder

variable {K : ℕ} {n b : Fin K → ℕ} {η ξ : Type}

/-! ## A program that reads `H X` and the occupations right after the evaluation -/

/-- a step that also reads occupations and `H X` -/
noncomputable def snapGeo (host : Host η n b) (c : Cfg n b) (pt : Point n b) (dir : Dir n b) (t : ℝ) :
    SM (SState η n b) (Point n b) := fun s =>
  match (simpleOps host c).geo pt dir t s with
  | (.ok r, u) => (.ok { r with fn := host.fn u.h, hx := host.hphi u.h }, u)
  | (.throw e, u) => (.throw e, u)
  | (.ub, u) => (.ub, u)
  | (.abort, u) => (.abort, u)

/-- the rest of `refresh` -/
noncomputable def snapRefresh (pt : Point n b) : SM (SState η n b) (Point n b) :=
  SM.lift (.ok { pt with eta := fun k => makeDiag (pt.ek k) })

noncomputable def mixedOps (host : Host η n b) (c : Cfg n b) : Ops ℝ (SState η n b) (Point n b) (Dir n b) :=
  { simpleOps host c with geo := snapGeo host c }

open Classical in
/-- the program with all its guards -/
noncomputable def snapOps (host : Host η n b) (c : Cfg n b) : Ops ℝ (SState η n b) (Point n b) (Dir n b) :=
  { mixedOps host c with
    geo := fun pt dir t s => if ∀ k, (dir.zeta k).IsHermitian then snapGeo host c pt dir t s else (.ub, s)
    setup := solverSetup host c
    restarted := fun pt s => if ∀ k, SOrtho (c.S k) (pt.X k) then solverRestarted host c pt s else (.ub, s)
    conjugated := fun fr pt dir s =>
      if ∀ k, SOrtho (c.S k) (pt.X k) then solverConjugated host c fr pt dir s else (.ub, s)
    refresh := snapRefresh }

/-- equality of states -/
def eqWorld (τ : Type) : World τ τ where
  R := Eq
  le _ _ := True
  refl _ := trivial
  trans _ _ := trivial

theorem Out.of_eq {τ β : Type} {Q : τ → β → β → Prop} {s : τ} {x : Res β × τ} (h : ∀ b, x.1 = .ok b → Q x.2 b b) :
    Out (eqWorld τ) Q s x x := by
  refine ⟨rfl, trivial, ?_⟩
  obtain ⟨r, t⟩ := x
  cases r with
  | ok b => exact .ok (h b rfl)
  | throw e => exact .throw e
  | ub => exact .ub
  | abort => exact .abort

/-- reading early changes nothing -/
noncomputable def mixedSim (host : Host η n b) (c : Cfg n b) : SimPair (mixedOps host c) (simpleOps host c) where
  W := eqWorld _
  P0 _ p p' := p = p'
  P1 _ d d' p p' := d = d' ∧ p = { p' with fn := p.fn, hx := p.hx }
  P _ d d' p p' := d = d' ∧ p = p'
  D _ _ _ d d' := d = d'
  weaken h := h.2
  P0_mono _ h := h
  P1_mono _ h := h
  P_mono _ h := h
  D_mono _ h := h
  construct h := by cases h; exact Out.of_eq fun _ _ => trivial
  setup h := by cases h; exact Out.of_eq fun _ _ => rfl
  restarted h hp := by cases h; cases hp; exact Out.of_eq fun _ _ => ⟨rfl, rfl⟩
  conjugated fr h hp := by cases h; cases hp.1; cases hp.2; exact Out.of_eq fun _ _ => ⟨rfl, rfl, rfl⟩
  geo := by
    rintro s _ p _ d _ t rfl rfl rfl
    show Out _ _ s (snapGeo host c p d t s) ((simpleOps host c).geo p d t s)
    rw [snapGeo]
    rcases (simpleOps host c).geo p d t s with ⟨_ | _ | _ | _, u⟩
    · exact ⟨rfl, trivial, .ok ⟨rfl, rfl⟩⟩
    · exact ⟨rfl, trivial, .throw _⟩
    · exact ⟨rfl, trivial, .ub⟩
    · exact ⟨rfl, trivial, .abort⟩
  refresh := by
    rintro s _ d _ p p' rfl ⟨rfl, hp⟩
    show Out _ _ s (solverRefresh host p s) (solverRefresh host p' s)
    have : solverRefresh host p s = solverRefresh host p' s := by
      rw [hp]; rfl
    rw [this]
    exact Out.of_eq fun _ _ => ⟨rfl, rfl⟩
  gather h hp := by cases h; cases hp; exact Out.of_eq fun _ _ => trivial
  hostPrint h := by cases h; exact Out.of_eq fun _ _ => trivial
  getF h := by cases h; rfl
  getS h := by cases h; rfl

/-- what holds after an early reading step -/
def SnapAt (host : Host η n b) (c : Cfg n b) (r : Point n b) (s : SState η n b) : Prop :=
  Occ host c r.X r.ek r.mu s ∧ r.fn = host.fn s.h ∧ r.hx = host.hphi s.h

theorem mixed_rule {host : Host η n b} {c : Cfg n b} (hs : Setting host c) :
    RunRule (mixedOps host c) (SStart host c) (SInv host c) (SEnd c) (SAt host c) (SnapAt host c) (SDir c) where
  weaken := (solver_rule hs).weaken
  construct := (solver_rule hs).construct
  setup := (solver_rule hs).setup
  restarted := (solver_rule hs).restarted
  conjugated := (solver_rule hs).conjugated
  gather := (solver_rule hs).gather
  print := (solver_rule hs).print
  refresh := fun r s hI hG => (solver_rule hs).refresh r s hI hG.1
  geo := by
    intro pt dir sl t s hI hD
    have h := (solver_rule hs).geo pt dir sl t s hI hD
    show Keeps _ _ _ (snapGeo host c pt dir t s)
    rw [snapGeo]
    by_cases hq : SimpleStep c pt dir t
    · rw [show (simpleOps host c).geo pt dir t s = solverGeo host c pt dir t s from if_pos hq]
      rw [show (solverOps host c).geo pt dir t s = solverGeo host c pt dir t s from rfl] at h
      unfold Keeps at h
      generalize solverGeo host c pt dir t s = q at *
      rcases q with ⟨x | _ | _ | _, u⟩
      · exact ⟨h.any, fun _ => h.soft trivial, fun r hr => by cases hr; exact ⟨h.ok x rfl, rfl, rfl⟩⟩
      all_goals exact ⟨h.any, h.soft, fun r hr => by cases hr⟩
    · rw [show (simpleOps host c).geo pt dir t s = (.ub, s) from if_neg hq]
      exact ⟨(solver_rule hs).weaken s hI, fun h => h.elim, fun r hr => by cases hr⟩

theorem mixed_eq_snap {host : Host η n b} {c : Cfg n b} (hs : Setting host c) (prm : NlcgParams ℝ) (fuel rank : ℕ)
    (w : NState ℝ (SState η n b)) (h0 : SStart host c w.s) :
    nlcg (mixedOps host c) prm fuel rank w = nlcg (snapOps host c) prm fuel rank w := by
  refine (mixed_rule hs).congr_ops ?_ ?_ ?_ ?_ ?_ prm fuel rank w h0
  · intro pt dir sl t s _ hD
    exact (if_pos hD.herm).symm
  · intro pt s _ hJ
    exact (if_pos hJ.at_.2.1).symm
  · intro fr pt dir s _ hJ
    exact (if_pos hJ.at_.2.1).symm
  · rintro r s hI ⟨h1, h2, h3⟩
    show solverRefresh host r s = _
    obtain ⟨X, ek, ul, eta, fn, hx, mu⟩ := r
    simp only at h2 h3
    subst h2
    subst h3
    rfl
  · intro s _; rfl

/-- the guarded program runs as the program that stops at repeated eigenvalues -/
theorem snap_simple {host : Host η n b} {c : Cfg n b} (hs : Setting host c) (prm : NlcgParams ℝ) (fuel rank : ℕ)
    (w : NState ℝ (SState η n b)) (h0 : SStart host c w.s) :
    nlcg (snapOps host c) prm fuel rank w = nlcg (simpleOps host c) prm fuel rank w := by
  have h := nlcg_rel_pair (mixedSim host c) prm fuel rank (w := w) (w' := w) ⟨rfl, rfl, rfl, rfl, rfl⟩
  rw [mixed_eq_snap hs prm fuel rank w h0] at h
  generalize nlcg (snapOps host c) prm fuel rank w = o at *
  generalize nlcg (simpleOps host c) prm fuel rank w = o' at *
  cases h with
  | none => rfl
  | @some x y h =>
    obtain ⟨⟨h1, h2, h3, h4, h5⟩, -, h6⟩ := h
    obtain ⟨r, v⟩ := x
    obtain ⟨r', v'⟩ := y
    obtain ⟨s, f, i, fo, t⟩ := v
    obtain ⟨s', f', i', fo', t'⟩ := v'
    simp only at *
    cases h1
    subst h2 h3 h4 h5
    cases h6 with
    | ok h => rw [h]
    | _ => rfl

theorem simple_below (host : Host η n b) (c : Cfg n b) (prm : NlcgParams ℝ) (fuel rank : ℕ)
    (w : NState ℝ (SState η n b)) : Below (nlcg (simpleOps host c) prm fuel rank w) (solve host c prm fuel rank w) := by
  refine nlcg_below (ops := simpleOps host c) (geo' := solverGeo host c) (fun p d t s => ?_) prm fuel rank w
  by_cases h : SimpleStep c p d t
  · exact .inr (if_pos h)
  · refine .inl ?_
    rw [show (simpleOps host c).geo p d t s = (.ub, s) from if_neg h]

/-! ## Host calls -/

/-- related outcomes, with different relations of the states after success and failure -/
inductive Two {τ τ' β γ : Type} (A F : τ → τ' → Prop) (Q : β → γ → Prop) : Res β × τ → Res γ × τ' → Prop
  | ok {a b t t'} : Q a b → A t t' → Two A F Q (.ok a, t) (.ok b, t')
  | throw {e t t'} : F t t' → Two A F Q (.throw e, t) (.throw e, t')
  | ub {t t'} : F t t' → Two A F Q (.ub, t) (.ub, t')
  | abort {t t'} : F t t' → Two A F Q (.abort, t) (.abort, t')

theorem Two.bind {τ τ' β γ β' γ' : Type} {A A' F : τ → τ' → Prop} {Q : β → γ → Prop} {Q' : β' → γ' → Prop} {s : τ}
    {s' : τ'} {p : SM τ β} {p' : SM τ' γ} {f : β → SM τ β'} {f' : γ → SM τ' γ'} (h : Two A F Q (p s) (p' s'))
    (hf : ∀ t t' a b, A t t' → Q a b → Two A' F Q' (f a t) (f' b t')) :
    Two A' F Q' ((p >>= f) s) ((p' >>= f') s') := by
  rw [SM.bind_apply, SM.bind_apply]
  generalize p s = x at *
  generalize p' s' = y at *
  cases h with
  | ok h1 h2 => exact hf _ _ _ _ h2 h1
  | throw h => exact .throw h
  | ub h => exact .ub h
  | abort h => exact .abort h

theorem Two.out {τ τ' β γ : Type} {W : World τ τ'} (hl : ∀ s t, W.le s t) {A : τ → τ' → Prop} {Q : β → γ → Prop} {s : τ}
    {x : Res β × τ} {y : Res γ × τ'} (h : Two A W.R Q x y) (hA : ∀ t t', A t t' → W.R t t') :
    Out W (fun _ => Q) s x y := by
  cases h with
  | ok h1 h2 => exact ⟨hA _ _ h2, hl _ _, .ok h1⟩
  | throw h => exact ⟨h, hl _ _, .throw _⟩
  | ub h => exact ⟨h, hl _ _, .ub⟩
  | abort h => exact ⟨h, hl _ _, .abort⟩

variable {host' : Host η n b} {host : Host ξ n b} {c : Cfg n b} {la' : Lapack} {jk : (k : Fin K) → Mat (b k) (b k)}

/-- the same state, with orbitals that differ by `v` -/
def GRel (H : GaugeHost host' host) (v : Phases b) (s : SState η n b) (s' : SState ξ n b) : Prop :=
  H.R v s.h s'.h ∧ s.F = s'.F ∧ s.S = s'.S ∧ List.Forall₂ GaugeCall s.calls s'.calls

/-- the same, right after an evaluation -/
def GFull (H : GaugeHost host' host) (v : Phases b) (s : SState η n b) (s' : SState ξ n b) : Prop :=
  GRel H v s s' ∧ host'.hphi s.h = rephase v (host.hphi s'.h)

def gaugeWorld (H : GaugeHost host' host) : World (SState η n b) (SState ξ n b) where
  R s s' := ∃ v, IsPhase v ∧ GRel H v s s'
  le _ _ := True
  refl _ := trivial
  trans _ _ := trivial

variable {H : GaugeHost host' host}

theorem gaugeCall_two {β : Type} {v u : Phases b} (hu : IsPhase u) {s : SState η n b} {s' : SState ξ n b}
    (hR : GRel H v s s') {f : η → Option β × η} {g : ξ → Option β × ξ} {cl' cl : HostCall n b}
    (hcl : GaugeCall cl' cl) (h : (f s.h).1 = (g s'.h).1 ∧ H.R u (f s.h).2 (g s'.h).2) :
    Two (fun t t' => GRel H u t t' ∧ ∃ a, f s.h = (some a, t.h) ∧ g s'.h = (some a, t'.h)) (gaugeWorld H).R (· = ·)
      (hostCall cl' f s) (hostCall cl g s') := by
  unfold hostCall
  generalize f s.h = r at *
  generalize g s'.h = r' at *
  obtain ⟨o, t⟩ := r
  obtain ⟨o', t'⟩ := r'
  obtain ⟨h1, h2⟩ := h
  simp only at h1 h2
  subst h1
  have hc : List.Forall₂ GaugeCall (s.calls ++ [cl']) (s'.calls ++ [cl]) :=
    List.rel_append hR.2.2.2 (.cons hcl .nil)
  cases o with
  | none => exact .throw ⟨u, hu, h2, hR.2.1, hR.2.2.1, hc⟩
  | some x => exact .ok rfl ⟨⟨h2, hR.2.1, hR.2.2.1, hc⟩, x, rfl, rfl⟩

theorem gaugeEvaluate_two (hh' : HostOk host') (hh : HostOk host) {v u : Phases b} (hu : IsPhase u)
    {s : SState η n b} {s' : SState ξ n b} (hR : GRel H v s s') (X : Orbitals n b) (f x : Bands b) (mu : ℝ) :
    Two (GFull H u) (gaugeWorld H).R (fun _ _ => True)
      (evaluate host' { c with la := la', junk := jk } (rephase u X) f x mu s) (evaluate host c X f x mu s') := by
  unfold evaluate
  refine Two.bind (gaugeCall_two hu hR (.setC u X hu) (H.setC X u hu hR.1)) fun t1 t1' _ _ h1 _ => ?_
  refine Two.bind (gaugeCall_two hu h1.1 (.same _) (H.setFn f h1.1.1)) fun t2 t2' _ _ h2 _ => ?_
  refine Two.bind (gaugeCall_two hu h2.1 (.same _) (H.compute h2.1.1)) fun t3 t3' _ _ h3 _ => ?_
  obtain ⟨h3, a, c1, c2⟩ := h3
  have p3 := H.hphi h2.1.1 c1 c2
  refine Two.bind (gaugeCall_two hu h3 (.same _) (H.setMu mu h3.1)) fun t4 t4' _ _ h4 _ => ?_
  obtain ⟨h4, a, c1, c2⟩ := h4
  have p4 : host'.hphi t4.h = rephase u (host.hphi t4'.h) := by
    rw [(hh'.setMu _ _ _ c1).1.hphi, (hh.setMu _ _ _ c2).1.hphi, p3]
  refine Two.bind (gaugeCall_two hu h4 (.same _) (H.energy h4.1)) fun t5 t5' a _ h5 heq => ?_
  obtain ⟨h5, a, c1, c2⟩ := h5
  have p5 : host'.hphi t5.h = rephase u (host.hphi t5'.h) := by
    rw [(hh'.energy _ _ _ c1).1.hphi, (hh.energy _ _ _ c2).1.hphi, p4]
  subst heq
  rw [SM.modify_apply, SM.modify_apply]
  exact .ok trivial ⟨⟨h5.1, rfl, rfl, h5.2.2.2⟩, p5⟩

/-! ## Points and directions -/

/-- the same direction in the gauge `v` -/
structure GDir (v : Phases b) (d d' : Dir n b) : Prop where
  zx : d.zx = rephase v d'.zx
  zeta : ∀ k, d.zeta k = (diagonal (v k))ᴴ * d'.zeta k * diagonal (v k)

/-- the same point in the gauge `v`, up to `ul` and `eta` -/
structure GVal (v : Phases b) (p q : Point n b) : Prop where
  X : p.X = rephase v q.X
  hx : p.hx = rephase v q.hx
  ek : p.ek = q.ek
  fn : p.fn = q.fn
  mu : p.mu = q.mu

/-- `eta` is diagonal and the same -/
def GEta (p q : Point n b) : Prop := p.eta = q.eta ∧ ∃ e : Bands b, q.eta = fun k => makeDiag (e k)

/-- the point was reached along `d`, which is in the gauge `u` -/
def GStep (u v : Phases b) (d d' : Dir n b) (p q : Point n b) : Prop :=
  IsPhase u ∧ IsPhase v ∧ GDir u d d' ∧ GVal v p q ∧ ∀ k, p.ul k = (diagonal (u k))ᴴ * q.ul k * diagonal (v k)

theorem gaugeSetup_two (hh' : HostOk host') (hh : HostOk host) {s : SState η n b} {s' : SState ξ n b}
    (hR : (gaugeWorld H).R s s') :
    Out (gaugeWorld H) (fun _ p q => ∃ v, IsPhase v ∧ GVal v p q ∧ GEta p q) s
      (solverSetup host' { c with la := la', junk := jk } s) (solverSetup host c s') := by
  obtain ⟨v, hv, hR⟩ := hR
  refine Two.out (A := (gaugeWorld H).R) (fun _ _ => trivial) ?_ fun _ _ h => h
  unfold solverSetup
  refine Two.bind (gaugeCall_two hv hR (.same _) (H.compute hR.1)) fun s1 s1' _ _ h1 _ => ?_
  rw [SM.get_bind, SM.get_bind, SM.lift_bind, SM.lift_bind, H.ek h1.1.1]
  show Two _ _ _ (match c.occ (host.ek s1'.h) with | _ => _) _
  cases c.occ (host.ek s1'.h) with
  | ok q =>
    obtain ⟨mu, f⟩ := q
    simp only
    rw [SM.get_bind, SM.get_bind, H.C h1.1.1]
    refine Two.bind (gaugeEvaluate_two hh' hh hv h1.1 _ _ _ _) fun s2 s2' _ _ h2 _ => ?_
    rw [SM.get_bind, SM.get_bind]
    exact .ok ⟨v, hv, ⟨H.C h2.1.1, h2.2, rfl, rfl, rfl⟩, rfl, _, rfl⟩ ⟨v, hv, h2.1⟩
  | throw x => exact .throw ⟨v, hv, h1.1⟩
  | ub => exact .ub ⟨v, hv, h1.1⟩
  | abort => exact .abort ⟨v, hv, h1.1⟩

theorem gaugeGlobals {v u : Phases b} {p q : Point n b} (hp : GVal v p q) {h : η} {x : ξ} (hR : H.R u h x) (d : DirParams) :
    globals d (kIn host' { c with la := la', junk := jk } p h) = globals d (kIn host c q x) := by
  simp only [globals, kIn, H.ek hR, hp.ek]

theorem gaugeExec (hla : LapackOk c.la) (hla' : LapackOk la') (hP : ∀ k, (c.P k).PosDef) {v u : Phases b}
    (hv : IsPhase v) {p q : Point n b} (hp : GVal v p q) (ho : ∀ k, SOrtho (c.S k) (q.X k)) {h : η} {x : ξ}
    (hR : H.R u h x) (k : Fin K) :
    execAll la' (dirParams c q) (kIn host' { c with la := la', junk := jk } p h) k
      = ⟨(execAll c.la (dirParams c q) (kIn host c q x) k).fr,
          (execAll c.la (dirParams c q) (kIn host c q x) k).gx * diagonal (v k),
          (diagonal (v k))ᴴ * (execAll c.la (dirParams c q) (kIn host c q x) k).geta * diagonal (v k),
          (execAll c.la (dirParams c q) (kIn host c q x) k).dx * diagonal (v k),
          (diagonal (v k))ᴴ * (execAll c.la (dirParams c q) (kIn host c q x) k).deta * diagonal (v k)⟩ := by
  have h1 := execSpc_phase hla hla' (hv k) (dirParams c q) (globals (dirParams c q) (kIn host c q x)).1
    (globals (dirParams c q) (kIn host c q x)).2 (kIn host c q x k) (ho k) (hP k)
  rw [execAll, gaugeGlobals hp hR]
  refine Eq.trans (congrArg _ ?_) h1
  simp only [kIn, hp.X, hp.hx, hp.ek, hp.fn, H.ek hR, rephase]

theorem gaugeParams {v : Phases b} {p q : Point n b} (hp : GVal v p q) :
    dirParams { c with la := la', junk := jk } p = dirParams c q := by
  simp only [dirParams, hp.mu]

theorem gaugeOrtho {v : Phases b} (hv : IsPhase v) {p q : Point n b} (hp : GVal v p q) :
    (∀ k, SOrtho (c.S k) (p.X k)) ↔ ∀ k, SOrtho (c.S k) (q.X k) := by
  refine forall_congr' fun k => ?_
  rw [hp.X]
  exact sOrtho_uni (uni_diagonal (hv k))

/-- the direction relation: the gauge of the point is that of the direction -/
def GAlong (p q : Point n b) (d d' : Dir n b) : Prop :=
  ∃ v, IsPhase v ∧ p.X = rephase v q.X ∧ GDir v d d'

theorem gaugeRestarted_out (hla : LapackOk c.la) (hla' : LapackOk la') (hP : ∀ k, (c.P k).PosDef)
    {s : SState η n b} {s' : SState ξ n b} (hR : (gaugeWorld H).R s s') {v : Phases b} (hv : IsPhase v)
    {p q : Point n b} (hp : GVal v p q) (ho : ∀ k, SOrtho (c.S k) (q.X k)) :
    Out (gaugeWorld H) (fun _ x y => x.1 = y.1 ∧ GAlong p q x.2 y.2) s
      (solverRestarted host' { c with la := la', junk := jk } p s) (solverRestarted host c q s') := by
  unfold solverRestarted
  rw [SM.get_bind, SM.get_bind, gaugeParams hp]
  obtain ⟨u, -, hr⟩ := id hR
  have e := gaugeExec (jk := jk) hla hla' hP hv hp ho hr.1
  refine ⟨hR, trivial, .ok ⟨?_, v, hv, hp.X, ?_, ?_⟩⟩
  · simp only [restarted, e]
  · simp only [restarted, e]; rfl
  · intro k; simp only [restarted, e]

theorem gaugeConj (hla : LapackOk c.la) (hla' : LapackOk la') (hP : ∀ k, (c.P k).PosDef) {u v : Phases b}
    {p q : Point n b} {d d' : Dir n b} (hp : GStep u v d d' p q) (ho : ∀ k, SOrtho (c.S k) (q.X k)) {h : η} {x : ξ}
    {r : Phases b} (hR : H.R r h x) (k : Fin K) :
    conjAll la' (dirParams c q) (kIn host' { c with la := la', junk := jk } p h) d p.ul k
      = ((conjAll c.la (dirParams c q) (kIn host c q x) d' q.ul k).1,
          (conjAll c.la (dirParams c q) (kIn host c q x) d' q.ul k).2.1 * diagonal (v k),
          (diagonal (v k))ᴴ * (conjAll c.la (dirParams c q) (kIn host c q x) d' q.ul k).2.2 * diagonal (v k)) := by
  obtain ⟨hu, hv, hd, hp, hul⟩ := hp
  rw [conjAll, gaugeExec hla hla' hP hv hp ho hR, hd.zx, hd.zeta, hul]
  have : (kIn host' { c with la := la', junk := jk } p h k).S * (kIn host' { c with la := la', junk := jk } p h k).X
      = c.S k * q.X k * diagonal (v k) := by
    simp only [kIn, hp.X, rephase]
    rw [← Matrix.mul_assoc]
  rw [this]
  exact execConjugate_phase hla hla' (uni_diagonal (hu k)) (hv k) (sx_injective (ho k)) _ _ _ _ _

theorem gaugeConjugated_out (hla : LapackOk c.la) (hla' : LapackOk la') (hP : ∀ k, (c.P k).PosDef)
    {s : SState η n b} {s' : SState ξ n b} (hR : (gaugeWorld H).R s s') {u v : Phases b} {p q : Point n b} {d d' : Dir n b}
    (hp : GStep u v d d' p q) (ho : ∀ k, SOrtho (c.S k) (q.X k)) (fr : ℝ) :
    Out (gaugeWorld H) (fun _ x y => x.1 = y.1 ∧ x.2.1 = y.2.1 ∧ GAlong p q x.2.2 y.2.2) s
      (solverConjugated host' { c with la := la', junk := jk } fr p d s) (solverConjugated host c fr q d' s') := by
  unfold solverConjugated
  rw [SM.get_bind, SM.get_bind, gaugeParams hp.2.2.2.1]
  obtain ⟨w, -, hr⟩ := id hR
  have e := gaugeExec (jk := jk) hla hla' hP hp.2.1 hp.2.2.2.1 ho hr.1
  have e2 := gaugeConj (jk := jk) hla hla' hP hp ho hr.1
  refine ⟨hR, trivial, .ok ⟨?_, ?_, v, hp.2.1, hp.2.2.2.1.X, ?_, ?_⟩⟩
  · simp only [conjugated, e]
  · simp only [conjugated, e, e2]
  · simp only [conjugated, e, e2, addM, ← Matrix.smul_mul, ← Matrix.add_mul]
    rfl
  · intro k
    simp only [conjugated, e, e2, addM, Matrix.mul_add, Matrix.add_mul, Matrix.mul_smul, Matrix.smul_mul]

/-- a step with both eigensolvers -/
theorem gaugeGeo_two (hs' : Setting host' { c with la := la', junk := jk }) (hs : Setting host c)
    (ht' : EighTotal la') (ht : EighTotal c.la) (ho' : EighSorted la') (ho : EighSorted c.la)
    {s : SState η n b} {s' : SState ξ n b} (hR : (gaugeWorld H).R s s') {p q : Point n b} (hq : GEta p q)
    {d d' : Dir n b} (hd : GAlong p q d d') (hz : ∀ k, (d'.zeta k).IsHermitian) (t : ℝ) :
    Out (gaugeWorld H) (fun _ x y => ∃ u v, GStep u v d d' x y) s
      (snapGeo host' { c with la := la', junk := jk } p d t s) (snapGeo host c q d' t s') := by
  obtain ⟨u, hu, hX, hd⟩ := hd
  obtain ⟨heta, e, he⟩ := hq
  have hla' : LapackOk la' := hs'.lapack
  have key := fun k => geodesicUs_phase hs.lapack hla' ht ht' ho ho' (hu k) (hs.overlap k).1 (q.X k) (d'.zx k) (e k) (hz k) t
  choose k1 g g' k2 k3 k4 k5 k6 using key
  have hsim : SimpleStep { c with la := la', junk := jk } p d t ↔ SimpleStep c q d' t := by
    refine forall_congr' fun k => ?_
    rw [heta, he, hd.zeta k]
    rw [show (la'.heevd (advanceEta t (makeDiag (e k)) ((diagonal (u k))ᴴ * d'.zeta k * diagonal (u k)))).1.1
      = _ from k1 k]
  by_cases hi : SimpleStep c q d' t
  swap
  · have a1 : (simpleOps host' { c with la := la', junk := jk }).geo p d t s = (.ub, s) :=
      if_neg fun h => hi (hsim.1 h)
    have a2 : (simpleOps host c).geo q d' t s' = (.ub, s') := if_neg hi
    rw [snapGeo, snapGeo, a1, a2]
    exact ⟨hR, trivial, .ub⟩
  have a1 : (simpleOps host' { c with la := la', junk := jk }).geo p d t s
      = solverGeo host' { c with la := la', junk := jk } p d t s := if_pos (hsim.2 hi)
  have a2 : (simpleOps host c).geo q d' t s' = solverGeo host c q d' t s' := if_pos hi
  have hin : ∀ k, Function.Injective (g k).ek := fun k => by
    rw [k5 k]
    have := hi k
    rwa [he] at this
  choose v hv hul hXn using fun k => k6 k (hin k)
  have f1 : (forAllK fun k => geodesicUs c.la (q.X k) (q.eta k) (d'.zx k) (d'.zeta k) (c.S k) t) = .ok g :=
    forAllK_eq_ok fun k => by rw [he]; exact k2 k
  have f2 : (forAllK fun k => geodesicUs la' (p.X k) (p.eta k) (d.zx k) (d.zeta k) (c.S k) t) = .ok g' :=
    forAllK_eq_ok fun k => by rw [heta, he, hX, hd.zx, hd.zeta]; exact k3 k
  have f3 : (fun k => (g' k).ek) = fun k => (g k).ek := funext k4
  have f4 : (fun k => (g' k).X) = rephase v fun k => (g k).X := funext hXn
  rw [snapGeo, snapGeo, a1, a2, solverGeo, solverGeo, SM.lift_bind, SM.lift_bind, f1]
  simp only [f2, f3, f4]
  rw [SM.lift_bind, SM.lift_bind]
  cases c.occ fun k => (g k).ek with
  | ok r =>
    obtain ⟨mu, f⟩ := r
    simp only
    obtain ⟨u0, -, hR⟩ := hR
    have h2 := gaugeEvaluate_two (c := c) (la' := la') (jk := jk) hs'.host hs.host hv hR (fun k => (g k).X) f
      (fun k => (g k).ek) mu
    rw [SM.bind_apply, SM.bind_apply]
    generalize evaluate host' { c with la := la', junk := jk } (rephase v fun k => (g k).X) f _ mu s = x at *
    generalize evaluate host c (fun k => (g k).X) f _ mu s' = y at *
    cases h2 with
    | ok _ h2 =>
      exact ⟨⟨v, hv, h2.1⟩, trivial, .ok ⟨u, v, hu, hv, hd, ⟨rfl, h2.2, rfl, H.fn h2.1.1, rfl⟩, hul⟩⟩
    | throw h => exact ⟨h, trivial, .throw _⟩
    | ub h => exact ⟨h, trivial, .ub⟩
    | abort h => exact ⟨h, trivial, .abort⟩
  | throw x => exact ⟨hR, trivial, .throw x⟩
  | ub => exact ⟨hR, trivial, .ub⟩
  | abort => exact ⟨hR, trivial, .abort⟩

/-- Runs in two gauges and with two eigensolvers correspond. -/
noncomputable def gaugeSim (H : GaugeHost host' host) (hs' : Setting host' { c with la := la', junk := jk })
    (hs : Setting host c) (ht' : EighTotal la') (ht : EighTotal c.la) (ho' : EighSorted la') (ho : EighSorted c.la) :
    SimPair (snapOps host' { c with la := la', junk := jk }) (snapOps host c) where
  W := gaugeWorld H
  P0 _ p q := ∃ v, IsPhase v ∧ GVal v p q ∧ GEta p q
  P1 _ d d' p q := ∃ u v, GStep u v d d' p q
  P _ d d' p q := (∃ u v, GStep u v d d' p q) ∧ GEta p q
  D _ := GAlong
  weaken := by
    rintro s d d' p q ⟨⟨u, v, h⟩, he⟩
    exact ⟨v, h.2.1, h.2.2.2.1, he⟩
  P0_mono _ h := h
  P1_mono _ h := h
  P_mono _ h := h
  D_mono _ h := h
  construct := by
    intro s s' hR
    show Out _ _ s (SM.lift (if c.T = 0 then _ else _) s) (SM.lift (if c.T = 0 then _ else _) s')
    split
    · exact ⟨hR, trivial, .throw _⟩
    · exact ⟨hR, trivial, .ok trivial⟩
  setup hR := gaugeSetup_two hs'.host hs.host hR
  restarted := by
    rintro s s' p q hR ⟨v, hv, hp, -⟩
    by_cases h : ∀ k, SOrtho (c.S k) (q.X k)
    · have a1 : (snapOps host' { c with la := la', junk := jk }).restarted p s
          = solverRestarted host' { c with la := la', junk := jk } p s := if_pos ((gaugeOrtho hv hp).2 h)
      have a2 : (snapOps host c).restarted q s' = solverRestarted host c q s' := if_pos h
      rw [a1, a2]
      exact gaugeRestarted_out hs.lapack hs'.lapack hs.prec hR hv hp h
    · have a1 : (snapOps host' { c with la := la', junk := jk }).restarted p s = (.ub, s) :=
        if_neg fun h' => h ((gaugeOrtho hv hp).1 h')
      have a2 : (snapOps host c).restarted q s' = (.ub, s') := if_neg h
      rw [a1, a2]
      exact ⟨hR, trivial, .ub⟩
  conjugated := by
    rintro s s' p q d d' fr hR ⟨⟨u, v, hp⟩, -⟩
    by_cases h : ∀ k, SOrtho (c.S k) (q.X k)
    · have a1 : (snapOps host' { c with la := la', junk := jk }).conjugated fr p d s
          = solverConjugated host' { c with la := la', junk := jk } fr p d s :=
        if_pos ((gaugeOrtho hp.2.1 hp.2.2.2.1).2 h)
      have a2 : (snapOps host c).conjugated fr q d' s' = solverConjugated host c fr q d' s' := if_pos h
      rw [a1, a2]
      exact gaugeConjugated_out hs.lapack hs'.lapack hs.prec hR hp h fr
    · have a1 : (snapOps host' { c with la := la', junk := jk }).conjugated fr p d s = (.ub, s) :=
        if_neg fun h' => h ((gaugeOrtho hp.2.1 hp.2.2.2.1).1 h')
      have a2 : (snapOps host c).conjugated fr q d' s' = (.ub, s') := if_neg h
      rw [a1, a2]
      exact ⟨hR, trivial, .ub⟩
  geo := by
    rintro s s' p q d d' t hR ⟨-, -, -, hq⟩ hd
    obtain ⟨v, hv, hX, hd0⟩ := id hd
    have hz : (∀ k, (d.zeta k).IsHermitian) ↔ ∀ k, (d'.zeta k).IsHermitian := forall_congr' fun k => by
      rw [hd0.zeta k]; exact herm_uni (uni_diagonal (hv k))
    by_cases h : ∀ k, (d'.zeta k).IsHermitian
    · have a1 : (snapOps host' { c with la := la', junk := jk }).geo p d t s
          = snapGeo host' { c with la := la', junk := jk } p d t s := if_pos (hz.2 h)
      have a2 : (snapOps host c).geo q d' t s' = snapGeo host c q d' t s' := if_pos h
      rw [a1, a2]
      exact gaugeGeo_two hs' hs ht' ht ho' ho hR hq hd h t
    · have a1 : (snapOps host' { c with la := la', junk := jk }).geo p d t s = (.ub, s) := if_neg fun h' => h (hz.1 h')
      have a2 : (snapOps host c).geo q d' t s' = (.ub, s') := if_neg h
      rw [a1, a2]
      exact ⟨hR, trivial, .ub⟩
  refresh := by
    rintro s s' d d' p q hR ⟨u, v, h1, h2, h3, h4, h5⟩
    refine ⟨hR, trivial, .ok ⟨⟨u, v, h1, h2, h3, ⟨h4.X, h4.hx, h4.ek, h4.fn, h4.mu⟩, h5⟩, ?_, q.ek, rfl⟩⟩
    show (fun k => makeDiag (p.ek k)) = fun k => makeDiag (q.ek k)
    rw [h4.ek]
  gather := fun hR _ => ⟨hR, trivial, .ok trivial⟩
  hostPrint := by
    rintro s s' ⟨v, hv, hR⟩
    have := gaugeCall_two hv hR (.same .print) (H.print hR.1)
    show Out _ _ s (hostCall .print host'.print s) (hostCall .print host.print s')
    generalize hostCall .print host'.print s = x at *
    generalize hostCall .print host.print s' = y at *
    cases this with
    | ok h1 h2 => exact ⟨⟨v, hv, h2.1⟩, trivial, .ok trivial⟩
    | throw h => exact ⟨h, trivial, .throw _⟩
    | ub h => exact ⟨h, trivial, .ub⟩
    | abort h => exact ⟨h, trivial, .abort⟩
  getF hR := hR.choose_spec.2.2.1
  getS hR := hR.choose_spec.2.2.2.1

end Nlcg
