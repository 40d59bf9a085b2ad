import Verif.Proofs.CutShort
import Verif.Proofs.Spmd
import Verif.Spec.Schedule

/-! What a rank calls next depends on the replies it has got, and on nothing else. -/

namespace Nlcg
open Spec

variable {K R : ℕ} {own : Fin K → Fin R} {n b : Fin K → ℕ} {r : Fin R} {β γ : Type}

/-- the two logs have the first `i` entries and the next request in common -/
def PartAt (i : ℕ) (l l' : List (Req own n b r × Reply own n b r)) : Prop :=
  i < l.length ∧ i < l'.length ∧ l.take i = l'.take i ∧ (l[i]?).map Prod.fst = (l'[i]?).map Prod.fst

theorem PartAt.grow {i : ℕ} {l l' m m' : List (Req own n b r × Reply own n b r)} (h : PartAt i l l') (hm : l <+: m)
    (hm' : l' <+: m') : PartAt i m m' := by
  obtain ⟨h1, h2, h3, h4⟩ := h
  obtain ⟨t, rfl⟩ := hm
  obtain ⟨t', rfl⟩ := hm'
  refine ⟨by simp; omega, by simp; omega, ?_, ?_⟩
  · rw [List.take_append_of_le_length h1.le, List.take_append_of_le_length h2.le, h3]
  · rw [List.getElem?_append_left h1, List.getElem?_append_left h2, h4]

/-- An operation that depends on the stream: with two streams that agree below `i` it does the same, or the logs part
at `i`. -/
structure Causal (i : ℕ) (ω ω' : ℕ → Reply own n b r) (m m' : SM (RState own n b r) β) : Prop where
  grow : Grows m
  grow' : Grows m'
  out : ∀ x, x.log.length ≤ i → (m x = m' x ∧ (m x).2.log.length ≤ i) ∨ PartAt i (m x).2.log (m' x).2.log

section
variable {i : ℕ} {ω ω' : ℕ → Reply own n b r}

theorem Causal.bind {m m' : SM (RState own n b r) β} {f f' : β → SM (RState own n b r) γ} (h : Causal i ω ω' m m')
    (hf : ∀ y, Causal i ω ω' (f y) (f' y)) : Causal i ω ω' (m >>= f) (m' >>= f') := by
  refine ⟨h.grow.bind fun y => (hf y).grow, h.grow'.bind fun y => (hf y).grow', fun x hx => ?_⟩
  rw [SM.bind_apply, SM.bind_apply]
  rcases h.out x hx with ⟨e, l⟩ | pa
  · rw [← e]
    generalize m x = p at l
    rcases p with ⟨(y | e | _ | _), s⟩
    · exact (hf y).out s l
    all_goals exact .inl ⟨rfl, l⟩
  · right
    generalize m x = p at pa
    generalize m' x = p' at pa
    rcases p with ⟨(y | e | _ | _), s⟩ <;> rcases p' with ⟨(y' | e' | _ | _), s'⟩ <;>
      first
        | exact pa.grow ((hf _).grow _) ((hf _).grow' _)
        | exact pa.grow ((hf _).grow _) List.prefix_rfl
        | exact pa.grow List.prefix_rfl ((hf _).grow' _)
        | exact pa

theorem Causal.lift (a : Res β) : Causal i ω ω' (SM.lift a) (SM.lift a) :=
  ⟨Grows.lift a, Grows.lift a, fun _ hx => .inl ⟨rfl, hx⟩⟩

theorem Causal.pure (a : β) : Causal i ω ω' (Pure.pure a) (Pure.pure a) :=
  ⟨Grows.pure a, Grows.pure a, fun _ hx => .inl ⟨rfl, hx⟩⟩

theorem Causal.get : Causal i ω ω' SM.get SM.get :=
  ⟨fun _ => List.prefix_rfl, fun _ => List.prefix_rfl, fun _ hx => .inl ⟨rfl, hx⟩⟩

theorem Causal.modify {g : RState own n b r → RState own n b r} (h : ∀ x, (g x).log = x.log) :
    Causal i ω ω' (SM.modify g) (SM.modify g) :=
  ⟨Grows.modify h, Grows.modify h, fun x hx => .inl ⟨rfl, by
    show (g x).log.length ≤ i
    rw [h]; exact hx⟩⟩

variable (hω : ∀ j < i, ω j = ω' j)
include hω

theorem Causal.coll (q : Req own n b r) : Causal i ω ω' (coll ω q) (coll ω' q) := by
  refine ⟨Grows.coll q, Grows.coll q, fun x hx => ?_⟩
  simp only [Nlcg.coll]
  rcases hx.lt_or_eq with hx | hx
  · left
    rw [hω _ hx]
    exact ⟨rfl, by simp; omega⟩
  · right
    refine ⟨by simp; omega, by simp; omega, ?_, ?_⟩
    · rw [← hx, List.take_left, List.take_left]
    · rw [← hx, List.getElem?_append_right le_rfl, List.getElem?_append_right le_rfl]
      simp

theorem Causal.hostR (q : Req own n b r) : Causal i ω ω' (hostR ω q) (hostR ω' q) := by
  refine (Causal.coll hω q).bind fun y => ?_
  rcases y with ⟨(_ | _), v⟩ | _ | _ | _ | _
  · refine Causal.bind (Causal.modify ?_) fun _ => Causal.lift _
    exact fun _ => rfl
  · exact Causal.modify fun _ => rfl
  all_goals exact Causal.lift _

theorem Causal.energyR : Causal i ω ω' (energyR ω) (energyR ω') := by
  refine (Causal.coll hω _).bind fun y => ?_
  rcases y with _ | ⟨(_ | e), v⟩ | _ | _ | _
  case energy.none =>
    refine Causal.bind (Causal.modify ?_) fun _ => Causal.lift _
    exact fun _ => rfl
  case energy.some =>
    refine Causal.bind (Causal.modify ?_) fun _ => Causal.pure _
    exact fun _ => rfl
  all_goals exact Causal.lift _

theorem Causal.reduceR (v : ℝ) : Causal i ω ω' (reduceR ω v) (reduceR ω' v) := by
  refine (Causal.coll hω _).bind fun y => ?_
  cases y
  case real => exact Causal.pure _
  all_goals exact Causal.lift _

theorem Causal.gatherR (e : LBands own b r) : Causal i ω ω' (gatherR ω e) (gatherR ω' e) := by
  refine (Causal.coll hω _).bind fun y => ?_
  cases y
  case bands => exact Causal.pure _
  all_goals exact Causal.lift _

theorem Causal.gatherWR (v : Mine own r → ℝ) : Causal i ω ω' (gatherWR ω v) (gatherWR ω' v) := by
  refine (Causal.coll hω _).bind fun y => ?_
  cases y
  case weights => exact Causal.pure _
  all_goals exact Causal.lift _

theorem Causal.occR (c : LCfg own n b r) (e : LBands own b r) : Causal i ω ω' (occR ω c e) (occR ω' c e) :=
  (Causal.gatherR hω e).bind fun _ => (Causal.gatherWR hω _).bind fun _ => (Causal.lift _).bind fun _ => Causal.pure _

theorem Causal.evaluateR (c : LCfg own n b r) (X : LOrb own n b r) (fn en : LBands own b r) (mu : ℝ) :
    Causal i ω ω' (evaluateR ω c X fn en mu) (evaluateR ω' c X fn en mu) :=
  (Causal.hostR hω _).bind fun _ => (Causal.hostR hω _).bind fun _ => (Causal.hostR hω _).bind fun _ =>
    (Causal.hostR hω _).bind fun _ => (Causal.energyR hω).bind fun _ => (Causal.reduceR hω _).bind fun _ =>
      Causal.modify fun _ => rfl

theorem Causal.setupR (c : LCfg own n b r) : Causal i ω ω' (setupR ω c) (setupR ω' c) :=
  (Causal.hostR hω _).bind fun _ => Causal.get.bind fun _ => (Causal.occR hω c _).bind fun _ => Causal.get.bind fun _ =>
    (Causal.evaluateR hω c _ _ _ _).bind fun _ => Causal.get.bind fun _ => Causal.pure _

theorem Causal.restartedR (c : LCfg own n b r) (p : RPoint own n b r) :
    Causal i ω ω' (restartedR ω c p) (restartedR ω' c p) :=
  Causal.get.bind fun _ => (Causal.reduceR hω _).bind fun _ => (Causal.reduceR hω _).bind fun _ =>
    (Causal.reduceR hω _).bind fun _ => Causal.pure _

theorem Causal.conjugatedR (c : LCfg own n b r) (fr : ℝ) (p : RPoint own n b r) (d : RDir own n b r) :
    Causal i ω ω' (conjugatedR ω c fr p d) (conjugatedR ω' c fr p d) :=
  Causal.get.bind fun _ => (Causal.reduceR hω _).bind fun _ => (Causal.reduceR hω _).bind fun _ =>
    (Causal.reduceR hω _).bind fun _ => (Causal.reduceR hω _).bind fun _ => Causal.pure _

theorem Causal.geoR (c : LCfg own n b r) (p : RPoint own n b r) (d : RDir own n b r) (t : ℝ) :
    Causal i ω ω' (geoR ω c p d t) (geoR ω' c p d t) :=
  (Causal.lift _).bind fun _ => (Causal.occR hω c _).bind fun _ => (Causal.evaluateR hω c _ _ _ _).bind fun _ =>
    Causal.pure _

theorem Causal.json (p : RPoint own n b r) : Causal i ω ω' (jsonGatherR ω p) (jsonGatherR ω' p) :=
  (Causal.gatherR hω _).bind fun _ => (Causal.gatherR hω _).bind fun _ => Causal.pure _

omit hω in
theorem Causal.refreshR (p : RPoint own n b r) : Causal i ω ω' (refreshR p) (refreshR p) :=
  Causal.get.bind fun _ => Causal.pure _

end

/-! ## A rank that is stopped at its `i`-th call -/

/-- the operation, stopped at the `i`-th call, and the request -/
def stopAt (i : ℕ) (m : SM (RState own n b r) β) : SM (RState own n b r × Option (Req own n b r)) β := fun x =>
  if x.1.log.length ≤ i ∧ x.2 = none then
    let y := m x.1
    if y.2.log.length ≤ i then (y.1, (y.2, none))
    else (.throw .runtimeError, ({ x.1 with log := y.2.log.take i }, (y.2.log[i]?).map Prod.fst))
  else (.throw .runtimeError, x)

theorem Causal.stop {i : ℕ} {ω ω' : ℕ → Reply own n b r} {m m' : SM (RState own n b r) β} (h : Causal i ω ω' m m') :
    stopAt i m = stopAt i m' := by
  funext x
  unfold stopAt
  by_cases hx : x.1.log.length ≤ i ∧ x.2 = none
  · rw [if_pos hx, if_pos hx]
    rcases h.out x.1 hx.1 with ⟨e, -⟩ | ⟨h1, h2, h3, h4⟩
    · rw [e]
    · simp only
      rw [if_neg (not_le.2 h1), if_neg (not_le.2 h2), h3, h4]
  · rw [if_neg hx, if_neg hx]

/-- the rank at the same place, or stopped while the other one goes on -/
def stopWorld (own : Fin K → Fin R) (n b : Fin K → ℕ) (r : Fin R) (i : ℕ) :
    CutWorld (RState own n b r × Option (Req own n b r)) (RState own n b r) where
  file := False
  R x y := x.1 = y ∧ x.2 = none ∧ y.log.length ≤ i
  X x y := i < y.log.length ∧ x.1.log = y.log.take i ∧ x.2 = (y.log[i]?).map Prod.fst
  le x y := x.log <+: y.log
  refl _ := List.prefix_rfl
  trans _ _ _ h h' := h.trans h'
  mono := by
    rintro x y z ⟨h1, h2, h3⟩ ⟨t, ht⟩
    rw [← ht]
    refine ⟨by simp; omega, ?_, ?_⟩
    · rw [List.take_append_of_le_length h1.le, h2]
    · rw [List.getElem?_append_left h1, h3]

theorem stop_cut {i : ℕ} (m : SM (RState own n b r) β) (x : RState own n b r × Option (Req own n b r))
    (y : RState own n b r) (hR : (stopWorld own n b r i).R x y) :
    CutOp (stopWorld own n b r i) (stopAt i m x) (m y) := by
  obtain ⟨h1, h2, h3⟩ := hR
  subst h1
  unfold stopAt
  rw [if_pos ⟨h3, h2⟩]
  simp only
  split
  · rename_i h
    exact .same ⟨rfl, rfl, h⟩
  · rename_i h
    exact .cut ⟨not_le.1 h, rfl, rfl⟩

/-- the operations, stopped -/
noncomputable def stopOps (i : ℕ) (ω : ℕ → Reply own n b r) (c : LCfg own n b r) :
    Ops ℝ (RState own n b r × Option (Req own n b r)) (RPoint own n b r) (RDir own n b r) where
  construct := fun x => (((rankOps ω c).construct x.1).1, (((rankOps ω c).construct x.1).2, x.2))
  setup := stopAt i (rankOps ω c).setup
  restarted p := stopAt i ((rankOps ω c).restarted p)
  conjugated fr p d := stopAt i ((rankOps ω c).conjugated fr p d)
  geo p d t := stopAt i ((rankOps ω c).geo p d t)
  refresh p := stopAt i ((rankOps ω c).refresh p)
  gather p := stopAt i ((rankOps ω c).gather p)
  hostPrint := stopAt i (rankOps ω c).hostPrint
  getF x := x.1.F
  getS x := x.1.S

theorem stopOps_eq {i : ℕ} {ω ω' : ℕ → Reply own n b r} (hω : ∀ j < i, ω j = ω' j) (c : LCfg own n b r) :
    stopOps i ω c = stopOps i ω' c := by
  unfold stopOps
  congr 1
  · exact (Causal.setupR hω c).stop
  · funext p; exact (Causal.restartedR hω c p).stop
  · funext fr p d; exact (Causal.conjugatedR hω c fr p d).stop
  · funext p d t; exact (Causal.geoR hω c p d t).stop
  · funext p; exact (Causal.json hω p).stop
  · exact (Causal.hostR hω .print).stop

theorem rank_grows (ω : ℕ → Reply own n b r) (c : LCfg own n b r) :
    GrowOps (rankOps ω c) fun x y => x.log <+: y.log where
  refl _ := List.prefix_rfl
  trans _ _ _ h h' := h.trans h'
  setup := (Causal.setupR (i := 0) (ω := ω) (ω' := ω) (fun _ _ => rfl) c).grow
  restarted p := (Causal.restartedR (i := 0) (ω := ω) (ω' := ω) (fun _ _ => rfl) c p).grow
  conjugated fr p d := (Causal.conjugatedR (i := 0) (ω := ω) (ω' := ω) (fun _ _ => rfl) c fr p d).grow
  geo p d t := (Causal.geoR (i := 0) (ω := ω) (ω' := ω) (fun _ _ => rfl) c p d t).grow
  refresh p := (Causal.refreshR (i := 0) (ω := ω) (ω' := ω) p).grow
  gather p := (Causal.json (i := 0) (ω := ω) (ω' := ω) (fun _ _ => rfl) p).grow
  print := (Causal.hostR (i := 0) (ω := ω) (ω' := ω) (fun _ _ => rfl) .print).grow

theorem stop_ops (i : ℕ) (ω : ℕ → Reply own n b r) (c : LCfg own n b r) :
    CutOps (stopOps i ω c) (rankOps ω c) (stopWorld own n b r i) where
  construct x y hR := by
    obtain ⟨h1, h2, h3⟩ := hR
    subst h1
    exact ⟨rfl, rfl, h2, h3⟩
  setup := stop_cut _
  restarted p := stop_cut _
  conjugated fr p d := stop_cut _
  geo p d t := stop_cut _
  refresh p := stop_cut _
  gather p := stop_cut _
  gather_file h := h.elim
  print := stop_cut _
  getF x y h := by rw [← h.1]; rfl
  getS x y h := by rw [← h.1]; rfl
  grow := rank_grows ω c

/-- the state with no request pending -/
def withNone (w : NState ℝ (RState own n b r)) : NState ℝ (RState own n b r × Option (Req own n b r)) :=
  { s := (w.s, none), file := w.file, info := w.info, force := w.force, trace := w.trace }

/-- Two streams that agree below `i`: both runs end in the same way with at most `i` calls, or their logs part at
`i`. -/
theorem rank_causal {i : ℕ} {ω ω' : ℕ → Reply own n b r} (hω : ∀ j < i, ω j = ω' j) (c : LCfg own n b r)
    (prm : NlcgParams ℝ) (fuel : ℕ) (w : NState ℝ (RState own n b r)) (hw : w.s.log.length ≤ i)
    {z z' : Res (Info ℝ) × NState ℝ (RState own n b r)} (h : rankRun ω c prm fuel w = some z)
    (h' : rankRun ω' c prm fuel w = some z') :
    (z = z' ∧ z.2.s.log.length ≤ i) ∨ PartAt i z.2.s.log z'.2.s.log := by
  have k := (stop_ops i ω c).run prm fuel r (withNone w) w ⟨⟨rfl, rfl, hw⟩, rfl, rfl, rfl, rfl⟩
  have k' := (stop_ops i ω' c).run prm fuel r (withNone w) w ⟨⟨rfl, rfl, hw⟩, rfl, rfl, rfl, rfl⟩
  rw [← stopOps_eq hω c] at k'
  rw [rankRun] at h h'
  rw [h] at k
  rw [h'] at k'
  generalize nlcg (stopOps i ω c) prm fuel r (withNone w) = a at k k'
  cases k with
  | same e =>
    rename_i o x y
    obtain ⟨⟨e1, e2, e3⟩, e4, e5, e6, e7⟩ := e
    cases k' with
    | same d =>
      rename_i y'
      obtain ⟨⟨d1, d2, d3⟩, d4, d5, d6, d7⟩ := d
      left
      refine ⟨?_, e3⟩
      obtain ⟨s, f, j, g, t⟩ := y
      obtain ⟨s', f', j', g', t'⟩ := y'
      simp only at *
      rw [← e1, ← d1, ← e4, ← d4, ← e5, ← d5, ← e6, ← d6, ← e7, ← d7]
    | cut d =>
      obtain ⟨⟨d1, d2, d3⟩, -⟩ := d _ rfl
      rw [e2] at d3
      rw [List.getElem?_eq_getElem d1] at d3
      simp at d3
  | cut e =>
    rename_i x
    obtain ⟨⟨e1, e2, e3⟩, -⟩ := e _ rfl
    cases k' with
    | same d =>
      obtain ⟨⟨d1, d2, d3⟩, -⟩ := d
      rw [d2] at e3
      rw [List.getElem?_eq_getElem e1] at e3
      simp at e3
    | cut d =>
      obtain ⟨⟨d1, d2, d3⟩, -⟩ := d _ rfl
      right
      exact ⟨e1, d1, by rw [← e2, ← d2], by rw [← e3, ← d3]⟩

end Nlcg
