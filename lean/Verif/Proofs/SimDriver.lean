import Verif.Proofs.Sim

/-! The driver preserves the correspondence of `Proofs/Sim.lean`. -/

namespace Nlcg
open Arith

variable {ι : Type} {Ω E : ι → Type} {α σ ρ δ : Type} [Arith α] {τ ρ' δ' : ι → Type}

/-- run states: same flag, record and trace; the ranks with the number `g` have the same file -/
def Par.toN (P : Par ι σ τ Ω E) (g : ℕ) (rk : ι → ℕ) :
    Par ι (NState α σ) (fun i => NState α (τ i)) Ω E where
  link w T w' := P.link w.s T w'.s
  rel i w v := P.rel i w.s v.s ∧ v.info = w.info ∧ v.force = w.force ∧ v.trace = w.trace ∧
    (rk i = g → v.file = w.file)
  feed i ω v T := P.feed i ω v.s T
  adv i v T v' := P.adv i v.s T v'.s
  link_nil w := P.link_nil w.s
  link_append := P.link_append
  feed_left := P.feed_left
  feed_right := P.feed_right
  adv_nil i v := P.adv_nil i v.s
  adv_append := P.adv_append

/-- what the driver needs -/
structure OpsSim (P : Par ι σ τ Ω E) (ops : Ops α σ ρ δ)
    (ops' : (i : ι) → Ω i → Ops α (τ i) (ρ' i) (δ' i)) (φ : (i : ι) → ρ → ρ' i)
    (ψ : (i : ι) → δ → δ' i) : Prop where
  construct : ∀ s, Sim P s (SM.toFM ops.construct) (fun i ω => SM.toFM (ops' i ω).construct) fun _ u => u
  setup : ∀ s, Sim P s (SM.toFM ops.setup) (fun i ω => SM.toFM (ops' i ω).setup) φ
  restarted : ∀ pt s, Sim P s (SM.toFM (ops.restarted pt))
    (fun i ω => SM.toFM ((ops' i ω).restarted (φ i pt))) fun i x => (x.1, ψ i x.2)
  conjugated : ∀ fr pt dir s, Sim P s (SM.toFM (ops.conjugated fr pt dir))
    (fun i ω => SM.toFM ((ops' i ω).conjugated fr (φ i pt) (ψ i dir))) fun i x => (x.1, x.2.1, ψ i x.2.2)
  geo : ∀ pt dir t s, Sim P s (SM.toFM (ops.geo pt dir t))
    (fun i ω => SM.toFM ((ops' i ω).geo (φ i pt) (ψ i dir) t)) φ
  refresh : ∀ pt s, Sim P s (SM.toFM (ops.refresh pt)) (fun i ω => SM.toFM ((ops' i ω).refresh (φ i pt))) φ
  gather : ∀ pt s, Sim P s (SM.toFM (ops.gather pt)) (fun i ω => SM.toFM ((ops' i ω).gather (φ i pt)))
    fun _ u => u
  hostPrint : ∀ s, Sim P s (SM.toFM ops.hostPrint) (fun i ω => SM.toFM (ops' i ω).hostPrint) fun _ u => u
  getF : ∀ i ω s x, P.rel i s x → (ops' i ω).getF x = ops.getF s
  getS : ∀ i ω s x, P.rel i s x → (ops' i ω).getS x = ops.getS s

variable {P : Par ι σ τ Ω E} {ops : Ops α σ ρ δ} {ops' : (i : ι) → Ω i → Ops α (τ i) (ρ' i) (δ' i)}
  {φ : (i : ι) → ρ → ρ' i} {ψ : (i : ι) → δ → δ' i} {g : ℕ} {rk : ι → ℕ}

omit [Arith α] in
theorem liftOp_sim {β : Type} {γ : ι → Type} {m : σ → Res β × σ}
    {m' : (i : ι) → Ω i → τ i → Res (γ i) × τ i} {f : (i : ι) → β → γ i}
    (h : ∀ s, Sim P s (SM.toFM m) (fun i ω => SM.toFM (m' i ω)) f) (w : NState α σ) :
    Sim (P.toN g rk) w (liftOp m) (fun i ω => liftOp (m' i ω)) f := by
  intro o w' hm
  have hm' : (m w.s).1 = o ∧ { w with s := (m w.s).2 } = w' := by
    simpa only [liftOp, Option.some.injEq, Prod.mk.injEq] using hm
  obtain ⟨rfl, rfl⟩ := hm'
  obtain ⟨T, l, c⟩ := h w.s _ _ rfl
  refine ⟨T, l, fun i ω v hr hf => ?_⟩
  obtain ⟨x', e, r, a⟩ := c i ω v.s hr.1 hf
  have e := Option.some.inj e
  refine ⟨{ v with s := x' }, ?_, ⟨r, hr.2⟩, a⟩
  show some (_, _) = _
  rw [e]

omit [Arith α] in
theorem modify_sim {f : NState α σ → NState α σ} {f' : (i : ι) → Ω i → NState α (τ i) → NState α (τ i)}
    (w : NState α σ) (hf : (f w).s = w.s) (hf' : ∀ i ω v, (f' i ω v).s = v.s)
    (h : ∀ i ω v, (P.toN g rk).rel i w v → (P.toN g rk).rel i (f w) (f' i ω v)) :
    Sim (P.toN g rk) w (FM.modify f) (fun i ω => FM.modify (f' i ω)) (fun _ u => u) := by
  intro o w' hm
  have hm' : Res.ok () = o ∧ f w = w' := by
    simpa only [FM.modify_apply, Option.some.injEq, Prod.mk.injEq] using hm
  obtain ⟨rfl, rfl⟩ := hm'
  refine ⟨fun _ => [], ?_, fun i ω v hr _ => ⟨f' i ω v, rfl, h i ω v hr, ?_⟩⟩
  · show P.link w.s _ (f w).s
    rw [hf]; exact P.link_nil _
  · show P.adv i v.s _ (f' i ω v).s
    rw [hf']; exact P.adv_nil _ _

omit [Arith α] in
theorem emit_sim (e : Ev α) (w : NState α σ) :
    Sim (P.toN g rk) w (emit e) (fun _ _ => emit e) (fun _ u => u) :=
  modify_sim w rfl (fun _ _ _ => rfl) fun _ _ v hr =>
    ⟨hr.1, hr.2.1, hr.2.2.1, by show v.trace ++ [e] = w.trace ++ [e]; rw [hr.2.2.2.1], hr.2.2.2.2⟩

theorem OpsSim.setInfo (h : OpsSim P ops ops' φ ψ) (i : ℕ) (slope : α) (w : NState α σ) :
    Sim (P.toN g rk) w (setInfo ops i slope) (fun j ω => setInfo (ops' j ω) i slope) (fun _ u => u) :=
  modify_sim w rfl (fun _ _ _ => rfl) fun j ω v hr => by
    have e1 := h.getF j ω w.s v.s hr.1
    have e2 := h.getS j ω w.s v.s hr.1
    refine ⟨hr.1, ?_, hr.2.2.1, ?_, hr.2.2.2.2⟩
    · show printInfo _ _ _ _ = printInfo _ _ _ _
      rw [e1, e2]
    · show v.trace ++ _ = w.trace ++ _
      rw [hr.2.2.2.1, e1, e2]

omit [Arith α] in
theorem OpsSim.writeJson (h : OpsSim P ops ops' φ ψ) (i : ℕ) (slope : α) (pt : ρ) (w : NState α σ) :
    Sim (P.toN g rk) w (writeJson ops g i slope pt)
      (fun j ω => writeJson (ops' j ω) (rk j) i slope (φ j pt)) (fun _ u => u) := by
  intro o w' hm
  have key : Sim P w.s (fun s => some (if i % 10 = 0 then ops.gather pt s else (.ok (), s)))
      (fun j ω x => some (if i % 10 = 0 then (ops' j ω).gather (φ j pt) x else (.ok (), x)))
      (fun _ u => u) := by
    split
    · exact h.gather pt w.s
    · exact Sim.const (o := .ok ()) rfl fun _ _ _ _ => rfl
  rcases hq : (if i % 10 = 0 then ops.gather pt w.s else (.ok (), w.s)) with ⟨o1, s1⟩
  obtain ⟨T, l, c⟩ := key o1 s1 (congrArg some hq)
  simp only [Nlcg.writeJson, hq, Option.some.injEq, Prod.mk.injEq] at hm
  obtain ⟨rfl, rfl⟩ := hm
  refine ⟨T, l, fun j ω v hr hf => ?_⟩
  obtain ⟨x', e, r, a⟩ := c j ω v.s hr.1 hf
  have e := Option.some.inj e
  have m : o1.mapOk (fun u : Unit => u) = o1 := by cases o1 <;> rfl
  rw [m] at e
  refine ⟨{ v with s := x', file := if rk j = 0 then v.file ++ [JsonRec.mk i ((ops' j ω).getF v.s)
      ((ops' j ω).getS v.s) slope (decide (i % 10 = 0) && decide (o1 = Res.ok ()))] else v.file },
    by simp only [Nlcg.writeJson, e, m], ⟨r, hr.2.1, hr.2.2.1, hr.2.2.2.1, fun hg => ?_⟩, a⟩
  simp only [h.getF j ω w.s v.s hr.1, h.getS j ω w.s v.s hr.1, hg, hr.2.2.2.2 hg]

theorem OpsSim.runSearch (h : OpsSim P ops ops' φ ψ) (prm : NlcgParams α) (fuel i : ℕ)
    (v : Vars α ρ δ) (w : NState α σ) :
    Sim (P.toN g rk) w (runSearch ops prm fuel i v) (fun j ω => runSearch (ops' j ω) prm fuel i
      { pt := φ j v.pt, dir := ψ j v.dir, slope := v.slope, fr := v.fr }) φ := by
  have he : EnvSim P { G := ops.geo v.pt v.dir, getF := ops.getF }
      (fun j ω => { G := (ops' j ω).geo (φ j v.pt) (ψ j v.dir), getF := (ops' j ω).getF }) φ :=
    ⟨fun t s => h.geo v.pt v.dir t s, h.getF⟩
  intro o w' hm
  rw [Nlcg.runSearch] at hm
  rcases hq : lineSearch { G := ops.geo v.pt v.dir, getF := ops.getF }
      { tTrial := lit (2 / 10), tau := prm.tau } fuel v.slope
      { s := w.s, forceRestart := w.force, evals := [] } with _ | ⟨q, st⟩
  · rw [hq] at hm; exact absurd hm (by simp)
  · rw [hq] at hm
    obtain ⟨T, l, c⟩ := he.lineSearch _ _ _ _ _ _ hq
    have hw : w'.s = st.s := by
      cases q <;> simp only [Option.some.injEq, Prod.mk.injEq] at hm <;> rw [← hm.2]
    refine ⟨T, ?_, fun j ω x hr hf => ?_⟩
    · show P.link w.s T w'.s
      rw [hw]; exact l
    · obtain ⟨st', e, r, a⟩ := c j ω { s := x.s, forceRestart := x.force, evals := [] }
        ⟨hr.1, hr.2.2.1, rfl⟩ hf
      show ∃ v', Nlcg.runSearch (ops' j ω) prm fuel i _ x = _ ∧ _
      simp only [Nlcg.runSearch, e]
      cases q <;> simp only [Option.some.injEq, Prod.mk.injEq] at hm <;> obtain ⟨rfl, rfl⟩ := hm <;>
        refine ⟨_, rfl, ⟨r.1, hr.2.1, r.2.1, ?_, hr.2.2.2.2⟩, a⟩
      · show x.trace ++ _ = w.trace ++ _
        rw [hr.2.2.2.1, hr.2.2.1, r.2.1]
      · show x.trace ++ _ = w.trace ++ _
        rw [hr.2.2.2.1, hr.2.2.1]
      · exact hr.2.2.2.1
      · exact hr.2.2.2.1

/-- local part of the driver's variables -/
def varsMap (φ : ρ → ρ' i) (ψ : δ → δ' i) (v : Vars α ρ δ) : Vars α (ρ' i) (δ' i) :=
  { pt := φ v.pt, dir := ψ v.dir, slope := v.slope, fr := v.fr }

omit [Arith α] in
theorem OpsSim.callRestarted (h : OpsSim P ops ops' φ ψ) (i : ℕ) (pt : ρ) (w : NState α σ) :
    Sim (P.toN g rk) w (callRestarted ops i pt) (fun j ω => callRestarted (ops' j ω) i (φ j pt))
      (fun j => varsMap (φ j) (ψ j)) := by
  refine Sim.bind (liftOp_sim (h.restarted pt) w) fun x w1 _ => ?_
  exact Sim.bind (emit_sim (.steepest i x.1) w1) fun _ w2 _ => Sim.const rfl fun _ _ _ _ => rfl

theorem OpsSim.body (h : OpsSim P ops ops' φ ψ) (prm : NlcgParams α) (fuel i : ℕ)
    (v : Vars α ρ δ) (w : NState α σ) :
    Sim (P.toN g rk) w (cgBody ops prm fuel g i v)
      (fun j ω => cgBody (ops' j ω) prm fuel (rk j) i (varsMap (φ j) (ψ j) v))
      (fun j => varsMap (φ j) (ψ j)) := by
  simp only [cgBody]
  refine Sim.bind (h.writeJson i v.slope v.pt w) fun _ w1 _ => ?_
  refine Sim.bind (h.setInfo i v.slope w1) fun _ w2 _ => ?_
  refine Sim.bind (liftOp_sim h.hostPrint w2) fun _ w3 _ => ?_
  refine Sim.bind (h.runSearch prm fuel i v w3) fun r w4 _ => ?_
  refine Sim.bind (liftOp_sim (h.refresh r) w4) fun pt w5 _ => ?_
  split
  · exact Sim.ub _
  · refine Sim.congr (m := if Int.tmod (i : Int) prm.restart = 0 ∨ w5.force = true then
          Nlcg.callRestarted ops i pt
        else do
          let (fr, slope, dir) ← liftOp (ops.conjugated v.fr pt v.dir)
          emit (.conjugate i slope)
          if lit 0 <ᶠ slope then do
            let v' ← Nlcg.callRestarted ops i pt
            FM.modify fun w => { w with force := true }
            pure v'
          else pure { pt := pt, dir := dir, slope := slope, fr := fr })
      (m' := fun j ω => if Int.tmod (i : Int) prm.restart = 0 ∨ w5.force = true then
          Nlcg.callRestarted (ops' j ω) i (φ j pt)
        else do
          let (fr, slope, dir) ← liftOp ((ops' j ω).conjugated v.fr (φ j pt) (ψ j v.dir))
          emit (.conjugate i slope)
          if lit 0 <ᶠ slope then do
            let v' ← Nlcg.callRestarted (ops' j ω) i (φ j pt)
            FM.modify fun w => { w with force := true }
            pure v'
          else pure { pt := φ j pt, dir := dir, slope := slope, fr := fr }) ?_ rfl ?_
    · split
      · exact h.callRestarted i pt w5
      · refine Sim.bind (liftOp_sim (h.conjugated v.fr pt v.dir) w5) fun x w6 _ => ?_
        refine Sim.bind (emit_sim (.conjugate i x.2.1) w6) fun _ w7 _ => ?_
        show Sim _ _ (if lit 0 <ᶠ x.2.1 then _ else _) (fun j ω => if lit 0 <ᶠ x.2.1 then _ else _) _
        split
        · refine Sim.bind (h.callRestarted i pt w7) fun v' w8 _ => ?_
          refine Sim.bind (modify_sim w8 rfl (fun _ _ _ => rfl) fun _ _ u hr => ?_) fun _ w9 _ => ?_
          · exact ⟨hr.1, hr.2.1, rfl, hr.2.2.2⟩
          · exact Sim.const rfl fun _ _ _ _ => rfl
        · exact Sim.const rfl fun _ _ _ _ => rfl
    · intro j ω x hr
      show (if Int.tmod (i : Int) prm.restart = 0 ∨ x.force = true then
          Nlcg.callRestarted (ops' j ω) i (φ j pt)
        else do
          let (fr, slope, dir) ← liftOp ((ops' j ω).conjugated v.fr (φ j pt) (ψ j v.dir))
          emit (.conjugate i slope)
          if lit 0 <ᶠ slope then do
            let v' ← Nlcg.callRestarted (ops' j ω) i (φ j pt)
            FM.modify fun w => { w with force := true }
            pure v'
          else pure { pt := φ j pt, dir := dir, slope := slope, fr := fr } : FM _ _) x = _
      rw [hr.2.2.1]

omit [Arith α] in
theorem getInfo_sim (w : NState α σ) : Sim (P.toN g rk) w (do let w ← FM.get; pure w.info)
    (fun _ _ => do let w ← FM.get; pure w.info) (fun _ x => x) :=
  Sim.const rfl fun i ω v hr => by
    show some (Res.ok v.info, v) = _
    rw [hr.2.1]; rfl

theorem OpsSim.success (h : OpsSim P ops ops' φ ψ) (i : ℕ) (v : Vars α ρ δ) (w : NState α σ) :
    Sim (P.toN g rk) w (cgSuccess ops g i v)
      (fun j ω => cgSuccess (ops' j ω) (rk j) i (varsMap (φ j) (ψ j) v)) (fun _ x => x) := by
  simp only [cgSuccess]
  refine Sim.bind (h.setInfo i v.slope w) fun _ w1 _ => ?_
  refine Sim.bind (h.writeJson i v.slope v.pt w1) fun _ w2 _ => ?_
  refine Sim.bind (liftOp_sim h.hostPrint w2) fun _ w3 _ => ?_
  refine Sim.bind (modify_sim w3 rfl (fun _ _ _ => rfl) fun _ _ u hr => ?_) fun _ w4 _ => getInfo_sim w4
  refine ⟨hr.1, ?_, hr.2.2⟩
  show ({ u.info with converged := true } : Info α) = { w3.info with converged := true }
  rw [hr.2.1]

theorem OpsSim.loop (h : OpsSim P ops ops' φ ψ) (prm : NlcgParams α) (fuel : ℕ) : ∀ (n i : ℕ)
    (v : Vars α ρ δ) (w : NState α σ), Sim (P.toN g rk) w (cgLoop ops prm fuel g n i v)
      (fun j ω => cgLoop (ops' j ω) prm fuel (rk j) n i (varsMap (φ j) (ψ j) v)) (fun _ x => x) := by
  intro n
  induction n with
  | zero => intro i v w; exact getInfo_sim w
  | succ n ih =>
    intro i v w
    simp only [cgLoop]
    refine Sim.bind (emit_sim (.start i v.slope) w) fun _ w1 _ => ?_
    show Sim _ _ (if Arith.abs v.slope <ᶠ prm.tol then _ else _)
      (fun j ω => if Arith.abs v.slope <ᶠ prm.tol then _ else _) _
    split
    · exact h.success i v w1
    · refine Sim.bind (Sim.attempt (h.body prm fuel i v w1)) fun x w2 _ => ?_
      rcases x with e | v'
      · cases e with
        | descentError => exact getInfo_sim w2
        | slopeError => exact getInfo_sim w2
        | _ => exact Sim.throw _ _
      · exact ih (i + 1) v' w2

/-- the whole driver -/
theorem OpsSim.run (h : OpsSim P ops ops' φ ψ) (prm : NlcgParams α) (fuel : ℕ) (w : NState α σ) :
    Sim (P.toN g rk) w (nlcg ops prm fuel g) (fun j ω => nlcg (ops' j ω) prm fuel (rk j))
      (fun _ x => x) := by
  simp only [nlcg]
  refine Sim.bind (modify_sim w rfl (fun _ _ _ => rfl) fun _ _ u hr =>
    ⟨hr.1, rfl, hr.2.2.1, rfl, hr.2.2.2.2⟩) fun _ w1 _ => ?_
  refine Sim.bind (liftOp_sim h.construct w1) fun _ w2 _ => ?_
  refine Sim.bind (modify_sim w2 rfl (fun _ _ _ => rfl) fun _ _ u hr =>
    ⟨hr.1, hr.2.1, hr.2.2.1, hr.2.2.2.1, fun _ => rfl⟩) fun _ w3 _ => ?_
  refine Sim.bind (liftOp_sim h.setup w3) fun pt w4 _ => ?_
  refine Sim.bind (liftOp_sim (h.restarted pt) w4) fun x w5 _ => ?_
  refine Sim.bind (modify_sim w5 rfl (fun _ _ _ => rfl) fun _ _ u hr =>
    ⟨hr.1, hr.2.1, rfl, hr.2.2.2⟩) fun _ w6 _ => ?_
  exact h.loop prm fuel _ 0 { pt := pt, dir := x.2, slope := x.1, fr := x.1 } w6

end Nlcg
