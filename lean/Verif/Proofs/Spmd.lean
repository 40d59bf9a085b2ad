import Verif.Proofs.SimDriver
import Verif.Proofs.Solver
import Verif.Spec.Spmd

/-! The ranks of a parallel run follow the run that sees all k-points. -/

namespace Nlcg
open Matrix Spec

variable {K R : ℕ} {own : Fin K → Fin R} {n b : Fin K → ℕ} {η : Type}

theorem Spec.Lockstep.append {host : Host η n b} {h h1 h2 : η}
    {L L' : (r : Fin R) → Transcript own n b r} (a : Lockstep host h L h1) (c : Lockstep host h1 L' h2) :
    Lockstep host h (fun r => L r ++ L' r) h2 := by
  induction a with
  | nil => exact c
  | step q _ ih => exact .step q (ih c)

theorem Spec.Answer.lockstep {host : Host η n b} {h h1 : η} {q : (r : Fin R) → Req own n b r}
    {a : (r : Fin R) → Reply own n b r} (c : Answer host h q a h1) :
    Lockstep host h (fun r => [(q r, a r)]) h1 := .step c (.nil _)

/-- ranks and the whole -/
def spmdPar (own : Fin K → Fin R) (host : Host η n b) : Par (Fin R) (SState η n b) (RState own n b)
    (fun r => ℕ → Reply own n b r) (fun r => Req own n b r × Reply own n b r) where
  link s T s' := Lockstep host s.h T s'.h
  rel r s x := x.view = view own host s.h r ∧ x.F = s.F ∧ x.S = s.S
  feed _ ω x T := ∀ (i : ℕ) (h : i < T.length), ω (x.log.length + i) = (T[i]).2
  adv _ x T x' := x'.log = x.log ++ T
  link_nil s := .nil _
  link_append := fun a c => a.append c
  feed_left := fun {i ω v T T'} h j hj => by
    rw [h j (by rw [List.length_append]; omega), List.getElem_append_left hj]
  feed_right := fun {i ω v v' T T'} h ha j hj => by
    have := h (T.length + j) (by rw [List.length_append]; omega)
    rw [List.getElem_append_right (by omega)] at this
    rw [ha, List.length_append, Nat.add_assoc, this]
    simp only [Nat.add_sub_cancel_left]
  adv_nil _ x := (List.append_nil _).symm
  adv_append := fun {i v v1 v2 T T'} h h' => by rw [h', h, List.append_assoc]

variable {host : Host η n b}

theorem feed_one {r : Fin R} {ω : ℕ → Reply own n b r} {x : RState own n b r} {q : Req own n b r}
    {a : Reply own n b r} (h : (spmdPar own host).feed r ω x [(q, a)]) : ω x.log.length = a :=
  h 0 (by simp)

theorem hostR_sim (call : HostCall n b) (f : η → Option Unit × η) (q : (r : Fin R) → Req own n b r)
    (hq : ∀ h, Answer host h q (fun r => .host (f h).1.isSome (view own host (f h).2 r)) (f h).2)
    (s : SState η n b) :
    Sim (spmdPar own host) s (SM.toFM (hostCall call f)) (fun r ω => SM.toFM (hostR ω (q r)))
      (fun _ u => u) := by
  intro o s' hm
  refine ⟨fun r => [(q r, .host (f s.h).1.isSome (view own host (f s.h).2 r))], ?_, fun r ω x hr hf => ?_⟩
  · have := (hq s.h).lockstep
    have e : s'.h = (f s.h).2 := by
      simp only [SM.toFM, hostCall, Option.some.injEq] at hm
      rcases hq : f s.h with ⟨_ | _, h'⟩ <;> rw [hq] at hm <;>
        simp only [Prod.mk.injEq] at hm <;> rw [← hm.2]
    show Lockstep host s.h _ s'.h
    rw [e]
    exact this
  · have e := feed_one hf
    simp only [SM.toFM, hostCall, Option.some.injEq] at hm
    rcases hq : f s.h with ⟨_ | _, h'⟩ <;> rw [hq] at hm e <;>
      simp only [Prod.mk.injEq] at hm <;> obtain ⟨rfl, rfl⟩ := hm <;>
      refine ⟨{ x with view := view own host h' r, log := x.log ++ [(q r, ω x.log.length)] }, ?_,
        ⟨rfl, hr.2⟩, ?_⟩
    · simp [SM.toFM, hostR, SM.bind_apply, coll, e, Res.mapOk]
    · show x.log ++ _ = x.log ++ _
      rw [e]
    · simp [SM.toFM, hostR, SM.bind_apply, coll, e, Res.mapOk]
    · show x.log ++ _ = x.log ++ _
      rw [e]

theorem energyR_sim (s : SState η n b) :
    Sim (spmdPar own host) s (SM.toFM (hostCall .energy host.energy)) (fun _ ω => SM.toFM (energyR ω))
      (fun _ u => u) := by
  intro o s' hm
  refine ⟨fun r => [(.energy, .energy (host.energy s.h).1 (view own host (host.energy s.h).2 r))], ?_,
    fun r ω x hr hf => ?_⟩
  · have := (Answer.energy (own := own) (host := host) s.h).lockstep
    have e : s'.h = (host.energy s.h).2 := by
      simp only [SM.toFM, hostCall, Option.some.injEq] at hm
      rcases hq : host.energy s.h with ⟨_ | _, h'⟩ <;> rw [hq] at hm <;>
        simp only [Prod.mk.injEq] at hm <;> rw [← hm.2]
    show Lockstep host s.h _ s'.h
    rw [e]
    exact this
  · have e := feed_one hf
    simp only [SM.toFM, hostCall, Option.some.injEq] at hm
    rcases hq : host.energy s.h with ⟨_ | _, h'⟩ <;> rw [hq] at hm e <;>
      simp only [Prod.mk.injEq] at hm <;> obtain ⟨rfl, rfl⟩ := hm <;>
      refine ⟨{ x with view := view own host h' r, log := x.log ++ [(.energy, ω x.log.length)] }, ?_,
        ⟨rfl, hr.2⟩, ?_⟩
    · simp [SM.toFM, energyR, SM.bind_apply, coll, e, Res.mapOk]
    · show x.log ++ _ = x.log ++ _
      rw [e]
    · simp [SM.toFM, energyR, SM.bind_apply, coll, e, Res.mapOk]
    · show x.log ++ _ = x.log ++ _
      rw [e]

/-- an operation that only moves data -/
theorem comm_sim {β : Type} (y : β) (q : (r : Fin R) → Req own n b r) (a : (r : Fin R) → Reply own n b r)
    (hq : ∀ h, Answer host h q a h) (m : (r : Fin R) → (ℕ → Reply own n b r) → SM (RState own n b r) β)
    (hm : ∀ r ω x, ω x.log.length = a r → m r ω x = (.ok y, { x with log := x.log ++ [(q r, a r)] }))
    (s : SState η n b) :
    Sim (spmdPar own host) s (pure y) (fun r ω => SM.toFM (m r ω)) (fun _ u => u) := by
  intro o s' h
  obtain ⟨rfl, rfl⟩ : Res.ok y = o ∧ s = s' := by
    simpa only [FM.pure_apply, Option.some.injEq, Prod.mk.injEq] using h
  refine ⟨fun r => [(q r, a r)], (hq s.h).lockstep, fun r ω x hr hf => ?_⟩
  refine ⟨{ x with log := x.log ++ [(q r, a r)] }, ?_, hr, rfl⟩
  show some (m r ω x) = _
  rw [hm r ω x (feed_one hf)]; rfl

theorem reduceR_sim (y : ℝ) (x : Fin R → ℝ) (h : ∑ r, x r = y) (s : SState η n b) :
    Sim (spmdPar own host) s (pure y) (fun r ω => SM.toFM (reduceR ω (x r))) (fun _ u => u) :=
  comm_sim y _ _ (fun h => Answer.reduce x h) _ (fun r ω x h => by
    simp [reduceR, SM.bind_apply, coll, h, *]) s

theorem gatherR_sim (e : Bands b) (s : SState η n b) :
    Sim (spmdPar own host) s (pure e) (fun r ω => SM.toFM (gatherR (r := r) ω fun k => e k))
      (fun _ u => u) :=
  comm_sim e _ _ (fun h => Answer.gather e h) _ (fun r ω x h => by
    simp [gatherR, SM.bind_apply, coll, h]) s

theorem gatherWR_sim (w : Fin K → ℝ) (s : SState η n b) :
    Sim (spmdPar own host) s (pure w) (fun r ω => SM.toFM (gatherWR (r := r) ω fun k => w k))
      (fun _ u => u) :=
  comm_sim w _ _ (fun h => Answer.gatherW w h) _ (fun r ω x h => by
    simp [gatherWR, SM.bind_apply, coll, h]) s

theorem lift_sim {β : Type} {γ : Fin R → Type} (o : Res β) (o' : (r : Fin R) → Res (γ r))
    (f : (r : Fin R) → β → γ r) (h : ∀ r, o' r = o.mapOk (f r)) (s : SState η n b) :
    Sim (spmdPar own host) s (SM.toFM (SM.lift o)) (fun r _ => SM.toFM (SM.lift (o' r))) f :=
  Sim.const rfl fun r _ _ _ => by rw [← h r]; rfl

/-- sums over the k-points of the ranks -/
theorem sum_mine (own : Fin K → Fin R) (f : Fin K → ℝ) :
    ∑ r, ∑ k : Mine own r, f k = ∑ k, f k := by
  rw [← Finset.sum_fiberwise Finset.univ own f]
  refine Finset.sum_congr rfl fun r _ => ?_
  rw [Finset.sum_subtype (Finset.univ.filter fun k => own k = r) (p := fun k => own k = r)
    (by simp) f]

variable {c : Cfg n b} {occ : (Fin K → ℝ) → Bands b → Res (ℝ × Bands b)}

/-- local part of an occupation result -/
def occLoc (own : Fin K → Fin R) (r : Fin R) (x : ℝ × Bands b) : ℝ × LBands own b r :=
  (x.1, fun k => x.2 k)

theorem occR_sim (hocc : ∀ e, c.occ e = occ c.wk e) (e : Bands b) (s : SState η n b) :
    Sim (spmdPar own host) s (SM.toFM (SM.lift (c.occ e)))
      (fun r ω => SM.toFM (occR ω (localCfg own c occ r) fun k => e k)) (occLoc own) := by
  refine Sim.congr (m := do let e ← pure e; let w ← pure c.wk; SM.toFM (SM.lift (occ w e)))
    (m' := fun r ω => do
      let e ← SM.toFM (gatherR ω fun k : Mine own r => e k)
      let w ← SM.toFM (gatherWR ω fun k : Mine own r => c.wk k)
      SM.toFM (SM.lift ((occ w e).mapOk (occLoc own r)))) ?_ ?_ ?_
  · exact Sim.bind (gatherR_sim e s) fun e' s1 _ => Sim.bind (gatherWR_sim c.wk s1) fun w s2 _ =>
      lift_sim _ _ _ (fun _ => rfl) s2
  · show SM.toFM (SM.lift (c.occ e)) s = _
    rw [hocc]; rfl
  · intro r ω x _
    rw [occR, SM.toFM_bind]
    refine congrFun (congrArg _ (funext fun e' => ?_)) x
    rw [SM.toFM_bind]
    refine congrArg _ (funext fun w => ?_)
    rw [SM.toFM_bind]
    funext x
    show _ = SM.toFM (SM.lift ((occ w e').mapOk (occLoc own r))) x
    have : (localCfg own c occ r).occ w e' = occ w e' := rfl
    rw [this]
    rcases occ w e' with y | _ | _ | _ <;> rfl

theorem entropyPart_sum (en : Bands b) (mu : ℝ) :
    ∑ r, entropyPart (localCfg own c occ r) (fun k => en k) mu
      = ((List.ofFn fun k => (c.wk k, List.ofFn (en k))).map
          fun k => k.1 * sumFunc (smearFns c.t).entropy k.2 mu c.T c.mo).sum := by
  rw [List.map_ofFn, List.sum_ofFn]
  exact sum_mine own fun k => c.wk k * sumFunc (smearFns c.t).entropy (List.ofFn (en k)) mu c.T c.mo

theorem evaluateR_sim (X : Orbitals n b) (fn en : Bands b) (mu : ℝ) (s : SState η n b) :
    Sim (spmdPar own host) s (SM.toFM (evaluate host c X fn en mu))
      (fun r ω => SM.toFM (evaluateR ω (localCfg own c occ r) (fun k => X k) (fun k => fn k)
        (fun k => en k) mu)) (fun _ u => u) := by
  simp only [evaluate, evaluateR, SM.toFM_bind]
  refine Sim.bind (hostR_sim _ _ _ (fun h => Answer.setC X h) s) fun _ s1 _ => ?_
  refine Sim.bind (hostR_sim _ _ _ (fun h => Answer.setFn fn h) s1) fun _ s2 _ => ?_
  refine Sim.bind (hostR_sim _ _ _ (fun h => Answer.compute h) s2) fun _ s3 _ => ?_
  refine Sim.bind (hostR_sim _ _ _ (fun h => Answer.setMu mu h) s3) fun _ s4 _ => ?_
  refine Sim.bind (energyR_sim s4) fun etot s5 _ => ?_
  refine Sim.congr (m := do
      let y ← pure ((List.ofFn fun k => (c.wk k, List.ofFn (en k))).map
          fun k => k.1 * sumFunc (smearFns c.t).entropy k.2 mu c.T c.mo).sum
      SM.toFM (SM.modify fun st : SState η n b =>
        { st with S := kB * c.T * (-1 * y), F := etot + kB * c.T * (-1 * y) }))
    (m' := fun r ω => do
      let y ← SM.toFM (reduceR ω (entropyPart (localCfg own c occ r) (fun k => en k) mu))
      SM.toFM (SM.modify fun st : RState own n b r =>
        { st with S := kB * c.T * (-1 * y), F := etot + kB * c.T * (-1 * y) })) ?_ rfl
    (fun _ _ _ _ => rfl)
  refine Sim.bind (reduceR_sim _ _ (entropyPart_sum en mu) s5) fun y s6 _ => ?_
  intro o s' hm
  obtain ⟨rfl, rfl⟩ := Prod.mk.inj (Option.some.inj hm)
  exact ⟨fun _ => [], Lockstep.nil _, fun r ω x hr _ =>
    ⟨_, rfl, ⟨hr.1, rfl, rfl⟩, (List.append_nil _).symm⟩⟩

/-! ## Restriction of points and directions -/

/-- local part of a point -/
def ptLoc (own : Fin K → Fin R) (r : Fin R) (pt : Point n b) : RPoint own n b r :=
  { X := fun k => pt.X k, ek := fun k => pt.ek k, ul := fun k => pt.ul k, eta := fun k => pt.eta k,
    fn := fun k => pt.fn k, hx := fun k => pt.hx k, mu := pt.mu }

/-- local part of a direction -/
def dirLoc (own : Fin K → Fin R) (r : Fin R) (d : Dir n b) : RDir own n b r :=
  { zx := fun k => d.zx k, zeta := fun k => d.zeta k }

theorem get_sim {β : Type} {γ : Fin R → Type} {φ : (r : Fin R) → β → γ r} {s : SState η n b}
    {f : SState η n b → SM (SState η n b) β}
    (F : (r : Fin R) → (ℕ → Reply own n b r) → View own n b r → SM (RState own n b r) (γ r))
    (h : Sim (spmdPar own host) s (SM.toFM (f s))
      (fun r ω => SM.toFM (F r ω (view own host s.h r))) φ) :
    Sim (spmdPar own host) s (SM.toFM (SM.get >>= f))
      (fun r ω => SM.toFM (SM.get >>= fun x => F r ω x.view)) φ :=
  h.congr rfl fun r ω x hr => by
    show some (F r ω x.view x) = some (F r ω (view own host s.h r) x)
    rw [hr.1]

theorem setupR_sim (hocc : ∀ e, c.occ e = occ c.wk e) (s : SState η n b) :
    Sim (spmdPar own host) s (SM.toFM (solverSetup host c))
      (fun r ω => SM.toFM (setupR ω (localCfg own c occ r))) (ptLoc own) := by
  simp only [solverSetup, setupR]
  rw [SM.toFM_bind]
  simp only [SM.toFM_bind (hostR _ _)]
  refine Sim.bind (hostR_sim _ _ _ (fun h => Answer.compute h) s) fun _ s1 _ => ?_
  refine get_sim (γ := RPoint own n b) (fun r ω v => do
    let x ← occR ω (localCfg own c occ r) v.ek
    let s ← SM.get
    evaluateR ω (localCfg own c occ r) s.view.C x.2 v.ek x.1
    let s ← SM.get
    pure { X := s.view.C, ek := v.ek, ul := (localCfg own c occ r).junk,
           eta := fun k => makeDiag (v.ek k), fn := x.2, hx := s.view.hphi, mu := x.1 }) ?_
  simp only [SM.toFM_bind (SM.lift _), SM.toFM_bind (occR _ _ _)]
  refine Sim.bind (occR_sim hocc (host.ek s1.h) s1) fun x s2 _ => ?_
  refine get_sim (γ := RPoint own n b) (fun r ω v => do
    evaluateR ω (localCfg own c occ r) v.C (occLoc own r x).2 (view own host s1.h r).ek x.1
    let s ← SM.get
    pure { X := s.view.C, ek := (view own host s1.h r).ek, ul := (localCfg own c occ r).junk,
           eta := fun k => makeDiag ((view own host s1.h r).ek k), fn := (occLoc own r x).2,
           hx := s.view.hphi, mu := x.1 }) ?_
  simp only [SM.toFM_bind (evaluate _ _ _ _ _ _), SM.toFM_bind (evaluateR _ _ _ _ _ _)]
  refine Sim.bind (evaluateR_sim (host.C s2.h) x.2 (host.ek s1.h) x.1 s2) fun _ s3 _ => ?_
  refine get_sim (γ := RPoint own n b) (fun r ω v => pure {
      X := v.C, ek := (view own host s1.h r).ek,
      ul := (localCfg own c occ r).junk, eta := fun k => makeDiag ((view own host s1.h r).ek k),
      fn := (occLoc own r x).2, hx := v.hphi, mu := x.1 }) ?_
  exact Sim.const rfl fun _ _ _ _ => rfl

theorem dFdmu_sum (p : DirParams) (ks : (k : Fin K) → KIn (n k) (b k)) :
    ∑ r, ∑ k : Mine own r, (∑ i, ((ks k).hii i - (ks k).e i)
      * (smearFns p.t).delta (((ks k).e i - p.mu) / (kB * p.T)) p.mo) * (ks k).wk = (globals p ks).1 :=
  sum_mine own fun k => (∑ i, ((ks k).hii i - (ks k).e i)
      * (smearFns p.t).delta (((ks k).e i - p.mu) / (kB * p.T)) p.mo) * (ks k).wk

theorem dmuDeta_sum (p : DirParams) (ks : (k : Fin K) → KIn (n k) (b k)) :
    ∑ r, ∑ k : Mine own r, ∑ i, (smearFns p.t).delta (((ks k).e i - p.mu) / (kB * p.T)) p.mo
      * (ks k).wk = (globals p ks).2 :=
  sum_mine own fun k => ∑ i, (smearFns p.t).delta (((ks k).e i - p.mu) / (kB * p.T)) p.mo * (ks k).wk

theorem restartedR_sim (pt : Point n b) (s : SState η n b) :
    Sim (spmdPar own host) s (SM.toFM (solverRestarted host c pt))
      (fun r ω => SM.toFM (restartedR ω (localCfg own c occ r) (ptLoc own r pt)))
      (fun r x => (x.1, dirLoc own r x.2)) := by
  let p := dirParams c pt
  let ks := kIn host c pt s.h
  refine Sim.congr (m := do
      let dF ← pure (globals p ks).1
      let sf ← pure (globals p ks).2
      let fr ← pure (∑ k, (execSpc c.la p dF sf (ks k)).fr)
      pure (fr, { zx := fun k => (execSpc c.la p dF sf (ks k)).dx
                  zeta := fun k => (execSpc c.la p dF sf (ks k)).deta }))
    (m' := fun r ω => do
      let dF ← SM.toFM (dFdmuR ω p fun k : Mine own r => ks k)
      let sf ← SM.toFM (dmuDetaR ω p fun k : Mine own r => ks k)
      let fr ← SM.toFM (reduceR ω (∑ k : Mine own r, (execSpc c.la p dF sf (ks k)).fr))
      pure (fr, { zx := fun k => (execSpc c.la p dF sf (ks k)).dx
                  zeta := fun k => (execSpc c.la p dF sf (ks k)).deta })) ?_ rfl ?_
  · refine Sim.bind (reduceR_sim _ _ (dFdmu_sum p ks) s) fun dF s1 _ => ?_
    refine Sim.bind (reduceR_sim _ _ (dmuDeta_sum p ks) s1) fun sf s2 _ => ?_
    refine Sim.bind (reduceR_sim _ _ (sum_mine own fun k => (execSpc c.la p dF sf (ks k)).fr) s2)
      fun fr s3 _ => ?_
    exact Sim.const rfl fun _ _ _ _ => rfl
  · intro r ω y hr
    show some ((restartedR ω (localCfg own c occ r) (ptLoc own r pt)) y) = _
    have e : kInR (localCfg own c occ r) (ptLoc own r pt) y.view = fun k : Mine own r => ks k := by
      rw [hr.1]; rfl
    have e2 : dirParamsR (localCfg own c occ r) (ptLoc own r pt) = p := rfl
    rw [restartedR, SM.get_bind]
    simp only [e, e2]
    change SM.toFM _ y = _
    simp only [SM.toFM_bind]
    rfl

theorem conjugatedR_sim (fr0 : ℝ) (pt : Point n b) (old : Dir n b) (s : SState η n b) :
    Sim (spmdPar own host) s (SM.toFM (solverConjugated host c fr0 pt old))
      (fun r ω => SM.toFM (conjugatedR ω (localCfg own c occ r) fr0 (ptLoc own r pt) (dirLoc own r old)))
      (fun r x => (x.1, x.2.1, dirLoc own r x.2.2)) := by
  let p := dirParams c pt
  let ks := kIn host c pt s.h
  let res := fun (dF sf : ℝ) (k : Fin K) => execSpc c.la p dF sf (ks k)
  let con := fun (dF sf : ℝ) (k : Fin K) => execConjugate c.la ((ks k).S * (ks k).X) (old.zx k)
    (old.zeta k) (pt.ul k) (res dF sf k).gx (res dF sf k).geta
  refine Sim.congr (m := do
      let dF ← pure (globals p ks).1
      let sf ← pure (globals p ks).2
      let fr ← pure (∑ k, (res dF sf k).fr)
      let sz ← pure (∑ k, (con dF sf k).1)
      pure (fr, fr + fr / fr0 * sz,
        { zx := fun k => addM (con dF sf k).2.1 (res dF sf k).dx 1 ((fr / fr0 : ℝ) : ℂ)
          zeta := fun k => addM (con dF sf k).2.2 (res dF sf k).deta 1 ((fr / fr0 : ℝ) : ℂ) }))
    (m' := fun r ω => do
      let dF ← SM.toFM (dFdmuR ω p fun k : Mine own r => ks k)
      let sf ← SM.toFM (dmuDetaR ω p fun k : Mine own r => ks k)
      let fr ← SM.toFM (reduceR ω (∑ k : Mine own r, (res dF sf k).fr))
      let sz ← SM.toFM (reduceR ω (∑ k : Mine own r, (con dF sf k).1))
      pure (fr, fr + fr / fr0 * sz,
        { zx := fun k => addM (con dF sf k).2.1 (res dF sf k).dx 1 ((fr / fr0 : ℝ) : ℂ)
          zeta := fun k => addM (con dF sf k).2.2 (res dF sf k).deta 1 ((fr / fr0 : ℝ) : ℂ) })) ?_ rfl ?_
  · refine Sim.bind (reduceR_sim _ _ (dFdmu_sum p ks) s) fun dF s1 _ => ?_
    refine Sim.bind (reduceR_sim _ _ (dmuDeta_sum p ks) s1) fun sf s2 _ => ?_
    refine Sim.bind (reduceR_sim _ _ (sum_mine own fun k => (res dF sf k).fr) s2) fun fr s3 _ => ?_
    refine Sim.bind (reduceR_sim _ _ (sum_mine own fun k => (con dF sf k).1) s3) fun sz s4 _ => ?_
    exact Sim.const rfl fun _ _ _ _ => rfl
  · intro r ω y hr
    show some ((conjugatedR ω (localCfg own c occ r) fr0 (ptLoc own r pt) (dirLoc own r old)) y) = _
    have e : kInR (localCfg own c occ r) (ptLoc own r pt) y.view = fun k : Mine own r => ks k := by
      rw [hr.1]; rfl
    have e2 : dirParamsR (localCfg own c occ r) (ptLoc own r pt) = p := rfl
    rw [conjugatedR, SM.get_bind]
    simp only [e, e2]
    change SM.toFM _ y = _
    simp only [SM.toFM_bind]
    rfl

theorem forAllK_eq_ok {K : ℕ} {β : Fin K → Type} {f : (k : Fin K) → Res (β k)} {g : (k : Fin K) → β k}
    (h : ∀ k, f k = .ok (g k)) : forAllK f = .ok g := by
  obtain ⟨g', hg'⟩ := forAllK_of_ok f fun k => ⟨_, h k⟩
  rw [hg']
  refine congrArg _ (funext fun k => ?_)
  exact Res.ok.inj ((forAllK_ok hg' k).symm.trans (h k))

theorem forMine_ok {r : Fin R} {β : Mine own r → Type} {f : (k : Mine own r) → Res (β k)}
    {g : (k : Mine own r) → β k} (h : ∀ k, f k = .ok (g k)) : forMine f = .ok g := by
  rw [forMine, forAllK_eq_ok (g := fun k h' => g ⟨k, h'⟩)]
  · rfl
  · intro k
    split
    · next hk => rw [h ⟨k, hk⟩]; rfl
    · next hk => exact congrArg Res.ok (funext fun h' => absurd h' hk)

theorem forMine_eq_ok {r : Fin R} {β : Mine own r → Type} {f : (k : Mine own r) → Res (β k)}
    {g : (k : Mine own r) → β k} (h : forMine f = .ok g) (k : Mine own r) : f k = .ok (g k) := by
  rw [forMine, Res.bind_eq_ok] at h
  obtain ⟨g', h1, h2⟩ := h
  cases h2
  have := forAllK_ok h1 k.1
  rw [dif_pos k.2, Res.bind_eq_ok] at this
  obtain ⟨v, hv, e⟩ := this
  rw [hv]
  exact congrArg Res.ok (congrFun (Res.ok.inj e) k.2)

theorem geoR_sim (hocc : ∀ e, c.occ e = occ c.wk e)
    (htot : ∀ {m : ℕ} (A : Mat m m), (c.la.heevd A).2 = 0) (pt : Point n b) (dir : Dir n b) (t : ℝ)
    (s : SState η n b) :
    Sim (spmdPar own host) s (SM.toFM (solverGeo host c pt dir t))
      (fun r ω => SM.toFM (geoR ω (localCfg own c occ r) (ptLoc own r pt) (dirLoc own r dir) t))
      (ptLoc own) := by
  have hg : ∀ k, ∃ g, geodesicUs c.la (pt.X k) (pt.eta k) (dir.zx k) (dir.zeta k) (c.S k) t = .ok g := by
    intro k
    have he : ∀ {m : ℕ} (A : Mat m m), ∃ w, c.la.eigh A = .ok w := fun A => by
      rw [Lapack.eigh]; simp [htot A]
    obtain ⟨⟨e, u⟩, h1⟩ := he (advanceEta t (pt.eta k) (dir.zeta k))
    rw [geodesicUs, h1]
    simp only [Res.bind_ok]
    rw [advanceX]
    simp only [loewdin]
    obtain ⟨w2, h2⟩ := he (innerM (addM (pt.X k) (dir.zx k) (t : ℂ)) (c.S k * addM (pt.X k) (dir.zx k) (t : ℂ)))
    rw [h2]
    exact ⟨_, rfl⟩
  choose g hg using hg
  have e1 : solverGeo host c pt dir t = SM.lift (c.occ fun k => (g k).ek) >>= fun x =>
      evaluate host c (fun k => (g k).X) x.2 (fun k => (g k).ek) x.1 >>= fun _ =>
      pure { pt with X := fun k => (g k).X, ek := fun k => (g k).ek, ul := fun k => (g k).ul, mu := x.1 } := by
    simp only [solverGeo]
    rw [forAllK_eq_ok hg]
    rfl
  have e2 : ∀ r ω, geoR ω (localCfg own c occ r) (ptLoc own r pt) (dirLoc own r dir) t
      = occR ω (localCfg own c occ r) (fun k => (g k).ek) >>= fun x =>
        evaluateR ω (localCfg own c occ r) (fun k => (g k).X) x.2 (fun k => (g k).ek) x.1 >>=
        fun _ => pure { ptLoc own r pt with
          X := fun k => (g k).X, ek := fun k => (g k).ek, ul := fun k => (g k).ul, mu := x.1 } := by
    intro r ω
    simp only [geoR]
    have : (forMine fun k : Mine own r => geodesicUs (localCfg own c occ r).la ((ptLoc own r pt).X k)
        ((ptLoc own r pt).eta k) ((dirLoc own r dir).zx k) ((dirLoc own r dir).zeta k)
        ((localCfg own c occ r).S k) t) = .ok fun k => g k := forMine_ok fun k => hg k
    rw [this]
    rfl
  simp only [e1, e2, SM.toFM_bind]
  refine Sim.bind (occR_sim hocc _ s) fun x s1 _ => ?_
  refine Sim.bind (evaluateR_sim _ _ _ _ s1) fun _ s2 _ => ?_
  exact Sim.const rfl fun _ _ _ _ => rfl

theorem refreshR_sim (pt : Point n b) (s : SState η n b) :
    Sim (spmdPar own host) s (SM.toFM (solverRefresh host pt))
      (fun r _ => SM.toFM (refreshR (ptLoc own r pt))) (ptLoc own) :=
  Sim.const rfl fun r ω y hr => by
    show some (Res.ok _, y) = some (Res.ok _, y)
    rw [hr.1]; rfl

theorem jsonGatherR_sim (pt : Point n b) (s : SState η n b) :
    Sim (spmdPar own host) s (SM.toFM (SM.lift (.ok ())))
      (fun r ω => SM.toFM (jsonGatherR ω (ptLoc own r pt))) (fun _ u => u) := by
  simp only [jsonGatherR, SM.toFM_bind]
  refine Sim.congr (m := do let _ ← pure pt.ek; let _ ← pure pt.fn; pure ()) ?_ rfl (fun _ _ _ _ => rfl)
  exact Sim.bind (gatherR_sim pt.ek s) fun _ s1 _ => Sim.bind (gatherR_sim pt.fn s1) fun _ s2 _ =>
    Sim.const rfl fun _ _ _ _ => rfl

/-- all operations -/
theorem spmd_ops (hocc : ∀ e, c.occ e = occ c.wk e)
    (htot : ∀ {m : ℕ} (A : Mat m m), (c.la.heevd A).2 = 0) :
    OpsSim (spmdPar own host) (solverOps host c) (fun r ω => rankOps ω (localCfg own c occ r))
      (ptLoc own) (dirLoc own) where
  construct s := lift_sim _ _ _ (fun r => by
    show (if c.T = 0 then _ else _) = _
    split <;> rfl) s
  setup := setupR_sim hocc
  restarted := restartedR_sim
  conjugated := conjugatedR_sim
  geo := geoR_sim hocc htot
  refresh := refreshR_sim
  gather := jsonGatherR_sim
  hostPrint s := hostR_sim _ _ _ (fun h => Answer.print h) s
  getF _ _ _ _ h := h.2.1
  getS _ _ _ _ h := h.2.2

/-! ## The log of a rank only grows -/

section grows
variable {r : Fin R} {β γ : Type} {ω : ℕ → Reply own n b r}

/-- the operation appends to the log -/
def Grows (m : SM (RState own n b r) β) : Prop := ∀ x, x.log <+: (m x).2.log

theorem Grows.bind {m : SM (RState own n b r) β} {f : β → SM (RState own n b r) γ} (h : Grows m)
    (h' : ∀ y, Grows (f y)) : Grows (m >>= f) := fun x => by
  show x.log <+: (SM.bind m f x).2.log
  have := h x
  rw [SM.bind]
  generalize m x = p at this
  rcases p with ⟨(y | e | _ | _), s⟩
  · exact this.trans (h' y s)
  all_goals exact this

theorem Grows.lift (a : Res β) : Grows (own := own) (n := n) (b := b) (r := r) (SM.lift a) :=
  fun x => List.prefix_refl x.log

theorem Grows.pure (a : β) : Grows (own := own) (n := n) (b := b) (r := r) (Pure.pure a) :=
  fun x => List.prefix_refl x.log

theorem Grows.modify {g : RState own n b r → RState own n b r} (h : ∀ x, (g x).log = x.log) :
    Grows (SM.modify g) := fun x => by
  show x.log <+: (g x).log
  rw [h]

theorem Grows.coll (q : Req own n b r) : Grows (coll ω q) := fun x => List.prefix_append x.log _

theorem Grows.hostR (q : Req own n b r) : Grows (hostR ω q) := by
  refine (Grows.coll q).bind fun y => ?_
  rcases y with ⟨(_ | _), v⟩ | _ | _ | _ | _
  · refine Grows.bind (Grows.modify ?_) fun _ => Grows.lift _
    exact fun _ => rfl
  · exact Grows.modify fun _ => rfl
  all_goals exact Grows.lift _

theorem Grows.energyR : Grows (energyR ω) := by
  refine (Grows.coll _).bind fun y => ?_
  rcases y with _ | ⟨(_ | e), v⟩ | _ | _ | _
  case energy.none =>
    refine Grows.bind (Grows.modify ?_) fun _ => Grows.lift _
    exact fun _ => rfl
  case energy.some =>
    refine Grows.bind (Grows.modify ?_) fun _ => Grows.pure _
    exact fun _ => rfl
  all_goals exact Grows.lift _

theorem Grows.reduceR (v : ℝ) : Grows (reduceR ω v) := by
  refine (Grows.coll _).bind fun y => ?_
  cases y
  case real => exact Grows.pure _
  all_goals exact Grows.lift _

theorem Grows.gatherWR (v : Mine own r → ℝ) : Grows (gatherWR ω v) := by
  refine (Grows.coll _).bind fun y => ?_
  cases y
  case weights => exact Grows.pure _
  all_goals exact Grows.lift _

theorem Grows.evaluateR (c : LCfg own n b r) (X : LOrb own n b r) (fn en : LBands own b r) (mu : ℝ) :
    Grows (evaluateR ω c X fn en mu) :=
  (Grows.hostR _).bind fun _ => (Grows.hostR _).bind fun _ => (Grows.hostR _).bind fun _ =>
    (Grows.hostR _).bind fun _ => Grows.energyR.bind fun _ => (Grows.reduceR _).bind fun _ =>
      Grows.modify fun _ => rfl

/-- the first collective operation is `q` -/
def Starts (ω : ℕ → Reply own n b r) (q : Req own n b r) (m : SM (RState own n b r) β) : Prop :=
  ∀ x, (x.log ++ [(q, ω x.log.length)]) <+: (m x).2.log

theorem Starts.bind {q : Req own n b r} {m : SM (RState own n b r) β}
    {f : β → SM (RState own n b r) γ} (h : Starts ω q m) (h' : ∀ y, Grows (f y)) :
    Starts ω q (m >>= f) := fun x => by
  show _ <+: (SM.bind m f x).2.log
  have := h x
  rw [SM.bind]
  generalize m x = p at this
  rcases p with ⟨(y | e | _ | _), s⟩
  · exact this.trans (h' y s)
  all_goals exact this

theorem Starts.gatherR (e : LBands own b r) : Starts ω (.gather e) (gatherR ω e) := by
  refine Starts.bind (fun x => List.prefix_refl _) fun y => ?_
  cases y
  case bands => exact Grows.pure _
  all_goals exact Grows.lift _

theorem Starts.occR (c : LCfg own n b r) (e : LBands own b r) : Starts ω (.gather e) (occR ω c e) :=
  (Starts.gatherR e).bind fun _ => (Grows.gatherWR _).bind fun _ => (Grows.lift _).bind fun _ =>
    Grows.pure _

end grows

end Nlcg
