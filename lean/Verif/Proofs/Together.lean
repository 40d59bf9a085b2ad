import Verif.Spec.Together
import Verif.Props.Spmd
import Verif.Proofs.AnyRank

/-! Two ranks that get the same numbers do the same. -/

namespace Nlcg
open Spec Matrix

variable {K R : ℕ} {own : Fin K → Fin R} {n b : Fin K → ℕ} {r r' : Fin R}

theorem relRes_mono {β γ : Type} {Q Q' : β → γ → Prop} {a : Res β} {a' : Res γ} (h : RelRes Q a a')
    (hq : ∀ x y, Q x y → Q' x y) : RelRes Q' a a' := by
  cases h with
  | ok h => exact .ok (hq _ _ h)
  | throw e => exact .throw e
  | ub => exact .ub
  | abort => exact .abort

/-- names of the operations a rank has called -/
def opsCalled (s : RState own n b r) : List OpName := s.log.map fun e => e.1.name

/-- states of two ranks: the same operations were called, the same free energy and entropy stored -/
def rankWorld (own : Fin K → Fin R) (n b : Fin K → ℕ) (r r' : Fin R) : World (RState own n b r) (RState own n b r') where
  R s s' := opsCalled s = opsCalled s' ∧ s.F = s'.F ∧ s.S = s'.S
  le _ _ := True
  refl _ := trivial
  trans _ _ := trivial

/-- two programs of two ranks that proceed alike -/
def Tog {β γ : Type} (Q : β → γ → Prop) (m : SM (RState own n b r) β) (m' : SM (RState own n b r') γ) : Prop :=
  ∀ s s', (rankWorld own n b r r').R s s' → Out (rankWorld own n b r r') (fun _ => Q) s (m s) (m' s')

theorem Tog.bind {β γ β' γ' : Type} {Q : β → γ → Prop} {Q' : β' → γ' → Prop} {m : SM (RState own n b r) β}
    {m' : SM (RState own n b r') γ} {f : β → SM (RState own n b r) β'} {f' : γ → SM (RState own n b r') γ'}
    (h : Tog Q m m') (hf : ∀ a a', Q a a' → Tog Q' (f a) (f' a')) : Tog Q' (m >>= f) (m' >>= f') := by
  intro s s' hR
  have h1 := h s s' hR
  show Out _ _ _ (SM.bind m f s) (SM.bind m' f' s')
  unfold SM.bind
  generalize m s = x at h1
  generalize m' s' = x' at h1
  obtain ⟨o, t⟩ := x
  obtain ⟨o', t'⟩ := x'
  obtain ⟨a1, -, a3⟩ := h1
  cases a3 with
  | ok hq => exact ⟨(hf _ _ hq t t' a1).1, trivial, (hf _ _ hq t t' a1).2.2⟩
  | throw e => exact ⟨a1, trivial, .throw e⟩
  | ub => exact ⟨a1, trivial, .ub⟩
  | abort => exact ⟨a1, trivial, .abort⟩

theorem Tog.pure {β γ : Type} {Q : β → γ → Prop} {a : β} {a' : γ} (h : Q a a') :
    Tog (own := own) (n := n) (b := b) (r := r) (r' := r') Q (Pure.pure a) (Pure.pure a') :=
  fun _ _ hR => ⟨hR, trivial, .ok h⟩

theorem Tog.lift {β γ : Type} {Q : β → γ → Prop} {a : Res β} {a' : Res γ} (h : RelRes Q a a') :
    Tog (own := own) (n := n) (b := b) (r := r) (r' := r') Q (SM.lift a) (SM.lift a') :=
  fun _ _ hR => ⟨hR, trivial, h⟩

theorem Tog.modify {f : RState own n b r → RState own n b r} {f' : RState own n b r' → RState own n b r'}
    (h : ∀ s s', (rankWorld own n b r r').R s s' → (rankWorld own n b r r').R (f s) (f' s')) :
    Tog (fun _ _ => True) (SM.modify f) (SM.modify f') := fun s s' hR => ⟨h s s' hR, trivial, .ok trivial⟩

theorem Tog.get : Tog (own := own) (n := n) (b := b) (r := r) (r' := r') (fun _ _ => True) SM.get SM.get :=
  fun _ _ hR => ⟨hR, trivial, .ok trivial⟩

section
variable {ω : ℕ → Reply own n b r} {ω' : ℕ → Reply own n b r'} (hω : ∀ i, Shared (ω i) (ω' i))
include hω

theorem tog_coll {q : Req own n b r} {q' : Req own n b r'} (h : q.name = q'.name) :
    Tog Shared (coll ω q) (coll ω' q') := fun s s' hR => by
  have hl : s.log.length = s'.log.length := by simpa [opsCalled] using congrArg List.length hR.1
  refine ⟨⟨?_, hR.2⟩, trivial, ?_⟩
  · simp only [opsCalled, coll, List.map_append, List.map_cons, List.map_nil, h]
    rw [show s.log.map (fun e => e.1.name) = s'.log.map fun e => e.1.name from hR.1]
  · simp only [coll]
    rw [← hl]
    exact .ok (hω _)

theorem tog_host {q : Req own n b r} {q' : Req own n b r'} (h : q.name = q'.name) :
    Tog (fun _ _ => True) (hostR ω q) (hostR ω' q') := by
  refine (tog_coll hω h).bind fun a a' ha => ?_
  cases ha with
  | host ok v v' =>
    cases ok
    · exact Tog.bind (Tog.modify fun s s' hR => hR) fun _ _ _ => .lift (.throw _)
    · exact .modify fun s s' hR => hR
  | _ => exact .lift .ub

theorem tog_energy : Tog (fun x y => x = y) (energyR ω) (energyR ω') := by
  refine (tog_coll hω rfl).bind fun a a' ha => ?_
  cases ha with
  | energy e v v' =>
    cases e
    · exact Tog.bind (Tog.modify fun s s' hR => hR) fun _ _ _ => .lift (.throw _)
    · exact Tog.bind (Tog.modify fun s s' hR => hR) fun _ _ _ => .pure rfl
  | _ => exact .lift .ub

theorem tog_reduce (x x' : ℝ) : Tog (fun x y => x = y) (reduceR ω x) (reduceR ω' x') := by
  refine (tog_coll hω rfl).bind fun a a' ha => ?_
  cases ha with
  | real x => exact .pure rfl
  | _ => exact .lift .ub

theorem tog_gather (e : LBands own b r) (e' : LBands own b r') :
    Tog (fun x y => x = y) (gatherR ω e) (gatherR ω' e') := by
  refine (tog_coll hω rfl).bind fun a a' ha => ?_
  cases ha with
  | bands x => exact .pure rfl
  | _ => exact .lift .ub

theorem tog_gatherW (e : Mine own r → ℝ) (e' : Mine own r' → ℝ) :
    Tog (fun x y => x = y) (gatherWR ω e) (gatherWR ω' e') := by
  refine (tog_coll hω rfl).bind fun a a' ha => ?_
  cases ha with
  | weights x => exact .pure rfl
  | _ => exact .lift .ub

variable {c : LCfg own n b r} {c' : LCfg own n b r'} (hc : SameSetup c c')
include hc

theorem tog_occ (e : LBands own b r) (e' : LBands own b r') :
    Tog (fun x y => x.1 = y.1) (occR ω c e) (occR ω' c' e') := by
  unfold occR
  refine (tog_gather hω e e').bind fun a a' ha => (tog_gatherW hω _ _).bind fun w w' hw => ?_
  subst ha hw
  rw [← hc.occ]
  refine Tog.bind (Q := fun x y => x = y) (.lift ?_) fun x x' hx => ?_
  · cases c.occ w a <;> constructor
    rfl
  · subst hx
    exact .pure rfl

theorem tog_evaluate (X : LOrb own n b r) (X' : LOrb own n b r') (f e : LBands own b r) (f' e' : LBands own b r')
    (mu mu' : ℝ) : Tog (fun _ _ => True) (evaluateR ω c X f e mu) (evaluateR ω' c' X' f' e' mu') := by
  unfold evaluateR
  refine (tog_host hω rfl).bind fun _ _ _ => (tog_host hω rfl).bind fun _ _ _ => (tog_host hω rfl).bind fun _ _ _ =>
    (tog_host hω rfl).bind fun _ _ _ => (tog_energy hω).bind fun a a' ha => (tog_reduce hω _ _).bind fun x x' hx => ?_
  subst ha hx
  rw [← hc.T]
  exact .modify fun s s' hR => ⟨hR.1, rfl, rfl⟩

theorem tog_setup : Tog (fun _ _ => True) (setupR ω c) (setupR ω' c') := by
  unfold setupR
  exact (tog_host hω rfl).bind fun _ _ _ => Tog.get.bind fun _ _ _ => (tog_occ hω hc _ _).bind fun _ _ _ =>
    Tog.get.bind fun _ _ _ => (tog_evaluate hω hc _ _ _ _ _ _ _ _).bind fun _ _ _ => Tog.get.bind fun _ _ _ =>
    .pure trivial

omit hc in
theorem tog_restarted (c : LCfg own n b r) (c' : LCfg own n b r') (p : RPoint own n b r) (p' : RPoint own n b r') :
    Tog (fun x y => x.1 = y.1) (restartedR ω c p) (restartedR ω' c' p') := by
  unfold restartedR dFdmuR dmuDetaR
  exact Tog.get.bind fun _ _ _ => (tog_reduce hω _ _).bind fun _ _ _ => (tog_reduce hω _ _).bind fun _ _ _ =>
    (tog_reduce hω _ _).bind fun _ _ h => .pure h

omit hc in
theorem tog_conjugated (c : LCfg own n b r) (c' : LCfg own n b r') (fr : ℝ) (p : RPoint own n b r)
    (p' : RPoint own n b r') (d : RDir own n b r) (d' : RDir own n b r') :
    Tog (fun x y => x.1 = y.1 ∧ x.2.1 = y.2.1) (conjugatedR ω c fr p d) (conjugatedR ω' c' fr p' d') := by
  unfold conjugatedR dFdmuR dmuDetaR
  exact Tog.get.bind fun _ _ _ => (tog_reduce hω _ _).bind fun _ _ _ => (tog_reduce hω _ _).bind fun _ _ _ =>
    (tog_reduce hω _ _).bind fun _ _ h => (tog_reduce hω _ _).bind fun _ _ h' => .pure ⟨h, by simp only [h, h']⟩

omit hω hc in
/-- a step cannot fail if no eigensolver does -/
theorem geodesicUs_total {N B : ℕ} {la : Lapack} (htot : ∀ {m : ℕ} (A : Mat m m), (la.heevd A).2 = 0) (X zx : Mat N B)
    (eta zeta : Mat B B) (S : Mat N N) (t : ℝ) : ∃ g, geodesicUs la X eta zx zeta S t = .ok g := by
  have he : ∀ {m : ℕ} (A : Mat m m), ∃ w, la.eigh A = .ok w := fun A => by
    rw [Lapack.eigh]; simp [htot A]
  obtain ⟨⟨e, u⟩, h1⟩ := he (advanceEta t eta zeta)
  rw [geodesicUs, h1]
  simp only [Res.bind_ok]
  rw [advanceX]
  simp only [loewdin]
  obtain ⟨w2, h2⟩ := he (innerM (addM X zx (t : ℂ)) (S * addM X zx (t : ℂ)))
  rw [h2]
  exact ⟨_, rfl⟩

omit hω hc in
theorem forMine_total {c : LCfg own n b r} (htot : ∀ {m : ℕ} (A : Mat m m), (c.la.heevd A).2 = 0)
    (p : RPoint own n b r) (d : RDir own n b r) (t : ℝ) : ∃ g, (forMine fun k : Mine own r =>
      geodesicUs c.la (p.X k) (p.eta k) (d.zx k) (d.zeta k) (c.S k) t) = .ok g := by
  choose g hg using fun k : Mine own r => geodesicUs_total htot (p.X k) (d.zx k) (p.eta k) (d.zeta k) (c.S k) t
  exact ⟨g, forMine_ok hg⟩

theorem tog_geo (p : RPoint own n b r) (p' : RPoint own n b r') (d : RDir own n b r) (d' : RDir own n b r')
    (t t' : ℝ) : Tog (fun _ _ => True) (geoR ω c p d t) (geoR ω' c' p' d' t') := by
  obtain ⟨g, hg⟩ := forMine_total (c := c) hc.total p d t
  obtain ⟨g', hg'⟩ := forMine_total (c := c') hc.total' p' d' t'
  unfold geoR
  rw [hg, hg']
  refine Tog.bind (Q := fun _ _ => True) (.lift (.ok trivial)) fun _ _ _ => ?_
  exact (tog_occ hω hc _ _).bind fun _ _ _ => (tog_evaluate hω hc _ _ _ _ _ _ _ _).bind fun _ _ _ => .pure trivial

/-- the backends of two ranks that get the same numbers correspond -/
noncomputable def togetherSim : Spec.Sim (rankOps ω c) (rankOps ω' c') where
  W := rankWorld own n b r r'
  P0 _ _ _ := True
  P _ _ _ := True
  D _ _ _ := True
  weaken _ := trivial
  P0_mono _ _ := trivial
  P_mono _ _ := trivial
  D_mono _ _ := trivial
  construct {s s'} hR := by
    show Out _ _ _ (SM.lift (if c.T = 0 then _ else _) s) (SM.lift (if c'.T = 0 then _ else _) s')
    rw [← hc.T]
    split
    · exact Tog.lift (.throw _) s s' hR
    · exact Tog.lift (.ok trivial) s s' hR
  setup hR := tog_setup hω hc _ _ hR
  restarted {s s' p p'} hR _ := by
    have := tog_restarted hω c c' p p' s s' hR
    exact ⟨this.1, trivial, relRes_mono this.2.2 fun _ _ h => ⟨h, trivial⟩⟩
  conjugated {s s' p p' d d'} fr hR _ _ := by
    have := tog_conjugated hω c c' fr p p' d d' s s' hR
    exact ⟨this.1, trivial, relRes_mono this.2.2 fun _ _ h => ⟨h.1, h.2, trivial⟩⟩
  geo {s s' p p' d d'} t hR _ _ := tog_geo hω hc p p' d d' t t s s' hR
  refresh {s s' p p'} hR _ := ⟨hR, trivial, .ok trivial⟩
  gather {s s' p p'} hR _ := ((tog_gather hω _ _).bind fun _ _ _ => (tog_gather hω _ _).bind fun _ _ _ =>
    Tog.pure trivial) s s' hR
  hostPrint hR := tog_host hω rfl _ _ hR
  getF hR := hR.2.1
  getS hR := hR.2.2

end

/-! ## Runs with given replies -/

/-- from the state `s` the program calls the operations `l` and returns; `P` holds of the result and the state -/
def Does {β : Type} (m : SM (RState own n b r) β) (s : RState own n b r) (l : List OpName)
    (P : β → RState own n b r → Prop) : Prop :=
  ∃ a s', m s = (.ok a, s') ∧ opsCalled s' = opsCalled s ++ l ∧ P a s'

theorem Does.bind {β γ : Type} {m : SM (RState own n b r) β} {f : β → SM (RState own n b r) γ} {s : RState own n b r}
    {l l' : List OpName} {P : β → RState own n b r → Prop} {P' : γ → RState own n b r → Prop} (h : Does m s l P)
    (hf : ∀ a s', s'.log.length = s.log.length + l.length → P a s' → Does (f a) s' l' P') :
    Does (m >>= f) s (l ++ l') P' := by
  obtain ⟨a, s', e, hl, hP⟩ := h
  have hlen : s'.log.length = s.log.length + l.length := by simpa [opsCalled] using congrArg List.length hl
  obtain ⟨a', s'', e', hl', hP'⟩ := hf a s' hlen hP
  refine ⟨a', s'', ?_, ?_, hP'⟩
  · show SM.bind m f s = _
    simp only [SM.bind, e, e']
  · rw [hl', hl, List.append_assoc]

theorem Does.pure {β : Type} {s : RState own n b r} {a : β} {P : β → RState own n b r → Prop} (h : P a s) :
    Does (Pure.pure a) s [] P := ⟨a, s, rfl, by simp, h⟩

theorem Does.get {s : RState own n b r} : Does SM.get s [] fun a s' => a = s ∧ s' = s :=
  ⟨s, s, rfl, by simp, rfl, rfl⟩

section
variable {ω : ℕ → Reply own n b r} {s : RState own n b r}

theorem does_host {q : Req own n b r} {v : View own n b r} (h : ω s.log.length = .host true v) :
    Does (hostR ω q) s [q.name] fun _ s' => s'.F = s.F := by
  refine ⟨(), { s with view := v, log := s.log ++ [(q, .host true v)] }, ?_, ?_, rfl⟩
  · unfold hostR
    show SM.bind (coll ω q) _ s = _
    simp only [SM.bind, coll, h]
    rfl
  · simp [opsCalled]

theorem does_energy {e : ℝ} {v : View own n b r} (h : ω s.log.length = .energy (some e) v) :
    Does (energyR ω) s [.energy] fun a _ => a = e := by
  refine ⟨e, { s with view := v, log := s.log ++ [(.energy, .energy (some e) v)] }, ?_, ?_, rfl⟩
  · unfold energyR
    show SM.bind (coll ω _) _ s = _
    simp only [SM.bind, coll, h]
    rfl
  · simp [opsCalled, Req.name]

theorem does_reduce {x y : ℝ} (h : ω s.log.length = .real y) :
    Does (reduceR ω x) s [.reduce] fun a s' => a = y ∧ s'.F = s.F := by
  refine ⟨y, { s with log := s.log ++ [(.reduce x, .real y)] }, ?_, ?_, rfl, rfl⟩
  · unfold reduceR
    show SM.bind (coll ω _) _ s = _
    simp only [SM.bind, coll, h]
    rfl
  · simp [opsCalled, Req.name]

theorem does_gather {e : LBands own b r} {y : Bands b} (h : ω s.log.length = .bands y) :
    Does (gatherR ω e) s [.gather] fun _ s' => s'.F = s.F := by
  refine ⟨y, { s with log := s.log ++ [(.gather e, .bands y)] }, ?_, ?_, rfl⟩
  · unfold gatherR
    show SM.bind (coll ω _) _ s = _
    simp only [SM.bind, coll, h]
    rfl
  · simp [opsCalled, Req.name]

theorem does_gatherW {e : Mine own r → ℝ} {y : Fin K → ℝ} (h : ω s.log.length = .weights y) :
    Does (gatherWR ω e) s [.gatherW] fun _ s' => s'.F = s.F := by
  refine ⟨y, { s with log := s.log ++ [(.gatherW e, .weights y)] }, ?_, ?_, rfl⟩
  · unfold gatherWR
    show SM.bind (coll ω _) _ s = _
    simp only [SM.bind, coll, h]
    rfl
  · simp [opsCalled, Req.name]

variable {c : LCfg own n b r}

theorem does_occ (ho : ∀ w e, ∃ x, c.occ w e = .ok x) {e : LBands own b r} {y : Bands b} {w : Fin K → ℝ}
    (h1 : ω s.log.length = .bands y) (h2 : ω (s.log.length + 1) = .weights w) :
    Does (occR ω c e) s [.gather, .gatherW] fun _ s' => s'.F = s.F := by
  unfold occR
  refine (does_gather h1).bind (l' := [.gatherW]) fun a s1 hs1 hF1 => ?_
  refine (does_gatherW (by rw [hs1]; exact h2)).bind (l' := []) fun u s2 hs2 hF2 => ?_
  obtain ⟨x, hx⟩ := ho u a
  rw [hx]
  exact ⟨_, s2, rfl, by simp, hF2.trans hF1⟩

/-- the replies to one evaluation -/
structure EvalReplies (ω : ℕ → Reply own n b r) (i : ℕ) (e : ℝ) : Prop where
  h0 : ∃ v, ω i = .host true v
  h1 : ∃ v, ω (i + 1) = .host true v
  h2 : ∃ v, ω (i + 2) = .host true v
  h3 : ∃ v, ω (i + 3) = .host true v
  h4 : ∃ v, ω (i + 4) = .energy (some e) v
  h5 : ω (i + 5) = .real 0

theorem does_evaluate {e : ℝ} (h : EvalReplies ω s.log.length e) (X : LOrb own n b r) (fn en : LBands own b r) (mu : ℝ) :
    Does (evaluateR ω c X fn en mu) s [.setC, .setFn, .compute, .setMu, .energy, .reduce] fun _ s' => s'.F = e := by
  obtain ⟨⟨v0, h0⟩, ⟨v1, h1⟩, ⟨v2, h2⟩, ⟨v3, h3⟩, ⟨v4, h4⟩, h5⟩ := h
  unfold evaluateR
  refine (does_host h0).bind (l' := [.setFn, .compute, .setMu, .energy, .reduce]) fun _ s1 l1 _ => ?_
  refine (does_host (v := v1) (by rw [l1]; exact h1)).bind (l' := [.compute, .setMu, .energy, .reduce])
    fun _ s2 l2 _ => ?_
  refine (does_host (v := v2) (by rw [l2, l1]; exact h2)).bind (l' := [.setMu, .energy, .reduce]) fun _ s3 l3 _ => ?_
  refine (does_host (v := v3) (by rw [l3, l2, l1]; exact h3)).bind (l' := [.energy, .reduce]) fun _ s4 l4 _ => ?_
  refine (does_energy (e := e) (v := v4) (by rw [l4, l3, l2, l1]; exact h4)).bind (l' := [.reduce]) fun a s5 l5 ha => ?_
  refine (does_reduce (y := 0) (by rw [l5, l4, l3, l2, l1]; exact h5)).bind (l' := []) fun x s6 l6 hx => ?_
  refine ⟨(), _, rfl, by simp [opsCalled], ?_⟩
  simp [ha, hx.1]

/-- the replies to a step -/
structure StepReplies (ω : ℕ → Reply own n b r) (i : ℕ) (e : ℝ) : Prop where
  h0 : ∃ y, ω i = .bands y
  h1 : ∃ y, ω (i + 1) = .weights y
  eval : EvalReplies ω (i + 2) e

/-- operations of a step -/
def stepOps : List OpName := [.gather, .gatherW, .setC, .setFn, .compute, .setMu, .energy, .reduce]

theorem does_geo (htot : ∀ {m : ℕ} (A : Mat m m), (c.la.heevd A).2 = 0) (ho : ∀ w e, ∃ x, c.occ w e = .ok x) {e : ℝ}
    (h : StepReplies ω s.log.length e) (p : RPoint own n b r) (d : RDir own n b r) (t : ℝ) :
    Does (geoR ω c p d t) s stepOps fun _ s' => s'.F = e := by
  obtain ⟨⟨y, h0⟩, ⟨y', h1⟩, h2⟩ := h
  obtain ⟨g, hg⟩ := forMine_total (c := c) htot p d t
  unfold geoR
  rw [hg]
  refine Does.bind (l := []) (P := fun _ s' => s' = s) ⟨g, s, rfl, by simp, rfl⟩ fun g s1 l1 hs1 => ?_
  subst hs1
  refine (does_occ ho h0 h1).bind (l' := [.setC, .setFn, .compute, .setMu, .energy, .reduce]) fun a s2 l2 _ => ?_
  refine (does_evaluate (by rw [l2]; exact h2) _ _ _ _).bind (l' := []) fun _ s3 l3 h3 => .pure h3

theorem does_setup (ho : ∀ w e, ∃ x, c.occ w e = .ok x) {e : ℝ} (h : ∃ v, ω s.log.length = .host true v)
    (h' : StepReplies ω (s.log.length + 1) e) :
    Does (setupR ω c) s (.compute :: stepOps) fun _ s' => s'.F = e := by
  obtain ⟨v, h⟩ := h
  obtain ⟨⟨y, h0⟩, ⟨y', h1⟩, h2⟩ := h'
  unfold setupR
  refine (does_host h).bind (l' := stepOps) fun _ s1 l1 _ => ?_
  refine Does.get.bind (l' := stepOps) fun x s2 l2 hx => ?_
  obtain ⟨rfl, rfl⟩ := hx
  refine (does_occ ho (by rw [l1]; exact h0) (by rw [l1]; exact h1)).bind
    (l' := [.setC, .setFn, .compute, .setMu, .energy, .reduce]) fun a s3 l3 _ => ?_
  refine Does.get.bind (l' := [.setC, .setFn, .compute, .setMu, .energy, .reduce]) fun x s4 l4 hx => ?_
  obtain ⟨rfl, rfl⟩ := hx
  refine (does_evaluate (by rw [l3, l1]; exact h2) _ _ _ _).bind (l' := []) fun _ s5 l5 h5 => ?_
  refine Does.get.bind (l' := []) fun x s6 l6 hx => ?_
  obtain ⟨rfl, rfl⟩ := hx
  exact .pure h5

theorem does_restarted {x1 x2 x3 : ℝ} (h1 : ω s.log.length = .real x1) (h2 : ω (s.log.length + 1) = .real x2)
    (h3 : ω (s.log.length + 2) = .real x3) (p : RPoint own n b r) :
    Does (restartedR ω c p) s [.reduce, .reduce, .reduce] fun a s' => a.1 = x3 ∧ s'.F = s.F := by
  unfold restartedR dFdmuR dmuDetaR
  refine Does.get.bind (l' := [.reduce, .reduce, .reduce]) fun x s1 l1 hx => ?_
  obtain ⟨rfl, rfl⟩ := hx
  refine (does_reduce h1).bind (l' := [.reduce, .reduce]) fun a s2 l2 ha => ?_
  refine (does_reduce (y := x2) (by rw [l2]; exact h2)).bind (l' := [.reduce]) fun a' s3 l3 ha' => ?_
  refine (does_reduce (y := x3) (by rw [l3, l2]; exact h3)).bind (l' := []) fun a'' s4 l4 ha'' => ?_
  exact .pure ⟨ha''.1, by rw [ha''.2, ha'.2, ha.2]⟩

theorem does_json {y y' : Bands b} (h1 : ω s.log.length = .bands y) (h2 : ω (s.log.length + 1) = .bands y')
    (p : RPoint own n b r) : Does (jsonGatherR ω p) s [.gather, .gather] fun _ s' => s'.F = s.F := by
  unfold jsonGatherR
  refine (does_gather h1).bind (l' := [.gather]) fun a s1 l1 ha => ?_
  refine (does_gather (y := y') (by rw [l1]; exact h2)).bind (l' := []) fun a' s2 l2 ha' => ?_
  exact .pure (ha'.trans ha)

end

end Nlcg
