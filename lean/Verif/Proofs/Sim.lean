import Verif.Model.Solver
import Verif.Proofs.Hoare

/-!
Programs that run side by side: one program that sees everything, and for each `i : ι` a program that
sees a part and receives the rest as replies. The driver preserves this correspondence.
-/

namespace Nlcg
open Arith

def Res.mapOk {β γ : Type} (f : β → γ) : Res β → Res γ
  | .ok x => .ok (f x)
  | .throw e => .throw e
  | .ub => .ub
  | .abort => .abort

/-- How the whole and its parts are related. `link w T w'`: `T i` is the piece of transcript of part
`i` between `w` and `w'`; `feed`: the stream provides the replies of that piece; `adv`: the part has
gone through that piece. -/
structure Par (ι W : Type) (V Ω E : ι → Type) where
  link : W → ((i : ι) → List (E i)) → W → Prop
  rel : (i : ι) → W → V i → Prop
  feed : (i : ι) → Ω i → V i → List (E i) → Prop
  adv : (i : ι) → V i → List (E i) → V i → Prop
  link_nil : ∀ w, link w (fun _ => []) w
  link_append : ∀ {w w1 w2 T T'}, link w T w1 → link w1 T' w2 → link w (fun i => T i ++ T' i) w2
  feed_left : ∀ {i ω v T T'}, feed i ω v (T ++ T') → feed i ω v T
  feed_right : ∀ {i ω v v' T T'}, feed i ω v (T ++ T') → adv i v T v' → feed i ω v' T'
  adv_nil : ∀ i v, adv i v [] v
  adv_append : ∀ {i v v1 v2 T T'}, adv i v T v1 → adv i v1 T' v2 → adv i v (T ++ T') v2

variable {ι W : Type} {V Ω E : ι → Type} {β : Type} {γ : ι → Type}

/-- the parts can follow the whole -/
def Sim (P : Par ι W V Ω E) (w : W) (m : FM W β) (m' : (i : ι) → Ω i → FM (V i) (γ i))
    (f : (i : ι) → β → γ i) : Prop :=
  ∀ o w', m w = some (o, w') → ∃ T, P.link w T w' ∧ ∀ i ω v, P.rel i w v → P.feed i ω v (T i) →
    ∃ v', m' i ω v = some (o.mapOk (f i), v') ∧ P.rel i w' v' ∧ P.adv i v (T i) v'

section
variable {P : Par ι W V Ω E} {w : W}

theorem Sim.congr {m m1 : FM W β} {m' m1' : (i : ι) → Ω i → FM (V i) (γ i)} {f : (i : ι) → β → γ i}
    (h : Sim P w m m' f) (e : m1 w = m w)
    (e' : ∀ i ω v, P.rel i w v → m1' i ω v = m' i ω v) : Sim P w m1 m1' f := by
  intro o w' hm
  obtain ⟨T, h1, h2⟩ := h o w' (e ▸ hm)
  refine ⟨T, h1, fun i ω v hr hf => ?_⟩
  rw [e' i ω v hr]
  exact h2 i ω v hr hf

theorem Sim.none {m : FM W β} {m' : (i : ι) → Ω i → FM (V i) (γ i)} {f : (i : ι) → β → γ i}
    (h : m w = none) : Sim P w m m' f := fun o w' hm => by rw [h] at hm; exact absurd hm (by simp)

theorem Sim.const {m : FM W β} {m' : (i : ι) → Ω i → FM (V i) (γ i)} {f : (i : ι) → β → γ i}
    {o : Res β} (e : m w = some (o, w))
    (e' : ∀ i ω v, P.rel i w v → m' i ω v = some (o.mapOk (f i), v)) : Sim P w m m' f := by
  intro o' w' hm
  obtain ⟨rfl, rfl⟩ : o = o' ∧ w = w' := by
    simpa only [Option.some.injEq, Prod.mk.injEq] using e.symm.trans hm
  exact ⟨_, P.link_nil w, fun i ω v hr _ => ⟨v, e' i ω v hr, hr, P.adv_nil i v⟩⟩

theorem Sim.pure (x : β) (f : (i : ι) → β → γ i) :
    Sim P w (Pure.pure x : FM W β) (fun i _ => (Pure.pure (f i x) : FM (V i) (γ i))) f :=
  Sim.const rfl fun _ _ _ _ => rfl

theorem Sim.throw (e : Exc) (f : (i : ι) → β → γ i) :
    Sim P w (FM.throw e : FM W β) (fun i _ => (FM.throw e : FM (V i) (γ i))) f :=
  Sim.const rfl fun _ _ _ _ => rfl

theorem Sim.ub (f : (i : ι) → β → γ i) :
    Sim P w (FM.ub : FM W β) (fun i _ => (FM.ub : FM (V i) (γ i))) f :=
  Sim.const rfl fun _ _ _ _ => rfl

theorem Sim.bind {β2 : Type} {γ2 : ι → Type} {m : FM W β} {m' : (i : ι) → Ω i → FM (V i) (γ i)}
    {f : (i : ι) → β → γ i} {g : β → FM W β2} {g' : (i : ι) → Ω i → γ i → FM (V i) (γ2 i)}
    {f2 : (i : ι) → β2 → γ2 i} (h : Sim P w m m' f)
    (hg : ∀ x w1, m w = some (.ok x, w1) → Sim P w1 (g x) (fun i ω => g' i ω (f i x)) f2) :
    Sim P w (m >>= g) (fun i ω => m' i ω >>= g' i ω) f2 := by
  intro o w' hm
  have key : ∀ o1 : Res β, (∀ x, o1 ≠ .ok x) → ∀ o2 : Res β2, m w = some (o1, w') →
      o1.mapOk (fun _ => ()) = o2.mapOk (fun _ => ()) →
      (∀ i, ∀ v v' : V i, ∀ ω, m' i ω v = some (o1.mapOk (f i), v') →
        (m' i ω >>= g' i ω) v = some (o2.mapOk (f2 i), v')) →
      ∃ T, P.link w T w' ∧ ∀ i ω v, P.rel i w v → P.feed i ω v (T i) →
        ∃ v', (m' i ω >>= g' i ω) v = some (o2.mapOk (f2 i), v') ∧ P.rel i w' v' ∧ P.adv i v (T i) v' := by
    intro o1 _ o2 h1 _ h3
    obtain ⟨T, a, c⟩ := h o1 w' h1
    refine ⟨T, a, fun i ω v hr hf => ?_⟩
    obtain ⟨v', d, hr', ha⟩ := c i ω v hr hf
    exact ⟨v', h3 i v v' ω d, hr', ha⟩
  rcases FM.bind_inv hm with ⟨x, w1, h1, h2⟩ | ⟨e, h1, rfl⟩ | ⟨h1, rfl⟩ | ⟨h1, rfl⟩
  · obtain ⟨T, l1, c1⟩ := h _ _ h1
    obtain ⟨T', l2, c2⟩ := hg x w1 h1 _ _ h2
    refine ⟨_, P.link_append l1 l2, fun i ω v hr hf => ?_⟩
    obtain ⟨v1, e1, r1, a1⟩ := c1 i ω v hr (P.feed_left hf)
    obtain ⟨v2, e2, r2, a2⟩ := c2 i ω v1 r1 (P.feed_right hf a1)
    refine ⟨v2, ?_, r2, P.adv_append a1 a2⟩
    show (m' i ω >>= g' i ω) v = _
    rw [FM.bind_apply, e1]
    exact e2
  · exact key _ (by simp) _ h1 rfl fun i v v' ω d => by rw [FM.bind_apply, d]; rfl
  · exact key _ (by simp) _ h1 rfl fun i v v' ω d => by rw [FM.bind_apply, d]; rfl
  · exact key _ (by simp) _ h1 rfl fun i v v' ω d => by rw [FM.bind_apply, d]; rfl

/-- value of an attempted program -/
def exMap {β γ : Type} (f : β → γ) : Except Exc β → Except Exc γ
  | .ok x => .ok (f x)
  | .error e => .error e

theorem Sim.attempt {m : FM W β} {m' : (i : ι) → Ω i → FM (V i) (γ i)} {f : (i : ι) → β → γ i}
    (h : Sim P w m m' f) :
    Sim P w (FM.attempt m) (fun i ω => FM.attempt (m' i ω)) (fun i => exMap (f i)) := by
  intro o w' hm
  rw [FM.attempt] at hm
  rcases hq : m w with _ | ⟨q, w1⟩
  · rw [hq] at hm; exact absurd hm (by simp)
  · rw [hq] at hm
    obtain ⟨T, l, c⟩ := h _ _ hq
    have hw : w1 = w' := by cases q <;> simp only [Option.some.injEq, Prod.mk.injEq] at hm <;> exact hm.2
    subst hw
    refine ⟨T, l, fun i ω v hr hf => ?_⟩
    obtain ⟨v', e, r, a⟩ := c i ω v hr hf
    refine ⟨v', ?_, r, a⟩
    show FM.attempt (m' i ω) v = _
    rw [FM.attempt, e]
    cases q <;> simp only [Option.some.injEq, Prod.mk.injEq, and_true] at hm <;> subst hm <;> rfl

end

/-- a total program -/
def SM.toFM {σ β : Type} (m : SM σ β) : FM σ β := fun s => some (m s)

theorem SM.toFM_bind {σ β γ : Type} (m : SM σ β) (f : β → SM σ γ) :
    SM.toFM (m >>= f) = SM.toFM m >>= fun x => SM.toFM (f x) := by
  funext s
  show some (SM.bind m f s) = FM.bind (SM.toFM m) (fun x => SM.toFM (f x)) s
  rw [SM.bind, FM.bind, SM.toFM]
  rcases m s with ⟨_ | _ | _ | _, s'⟩ <;> rfl

/-! ## The line search -/

section
variable {α σ : Type} [Arith α] {τ : ι → Type}

/-- search states: same flag and same steps -/
def Par.toLS (P : Par ι σ τ Ω E) : Par ι (LSState α σ) (fun i => LSState α (τ i)) Ω E where
  link w T w' := P.link w.s T w'.s
  rel i w v := P.rel i w.s v.s ∧ v.forceRestart = w.forceRestart ∧ v.evals = w.evals
  feed i ω v T := P.feed i ω v.s T
  adv i v T v' := P.adv i v.s T v'.s
  link_nil w := P.link_nil w.s
  link_append := P.link_append
  feed_left := P.feed_left
  feed_right := P.feed_right
  adv_nil i v := P.adv_nil i v.s
  adv_append := P.adv_append

variable {P : Par ι σ τ Ω E} {ρ : Type} {ρ' : ι → Type} {φ : (i : ι) → ρ → ρ' i}

/-- what a search needs -/
structure EnvSim (P : Par ι σ τ Ω E) (env : LSEnv α σ ρ) (env' : (i : ι) → Ω i → LSEnv α (τ i) (ρ' i))
    (φ : (i : ι) → ρ → ρ' i) : Prop where
  G : ∀ t s, Sim P s (fun s => some (env.G t s)) (fun i ω x => some ((env' i ω).G t x)) φ
  F : ∀ i ω s x, P.rel i s x → (env' i ω).getF x = env.getF s

variable {env : LSEnv α σ ρ} {env' : (i : ι) → Ω i → LSEnv α (τ i) (ρ' i)}

omit [Arith α] in
theorem EnvSim.evalG (h : EnvSim P env env' φ) (t : α) (st : LSState α σ) :
    Sim P.toLS st (evalG env t) (fun i ω => evalG (env' i ω) t) φ := by
  intro o st' hm
  have hm' : (env.G t st.s).1 = o ∧ { st with s := (env.G t st.s).2, evals := t :: st.evals } = st' := by
    simpa only [Nlcg.evalG, Option.some.injEq, Prod.mk.injEq] using hm
  obtain ⟨rfl, rfl⟩ := hm'
  obtain ⟨T, l, c⟩ := h.G t st.s _ _ rfl
  refine ⟨T, l, fun i ω v hr hf => ?_⟩
  obtain ⟨x', e, r, a⟩ := c i ω v.s hr.1 hf
  have e := Option.some.inj e
  refine ⟨{ v with s := x', evals := t :: v.evals }, ?_, ⟨r, hr.2.1, ?_⟩, a⟩
  · show some (_, _) = _
    rw [e]
  · show t :: v.evals = t :: st.evals
    rw [hr.2.2]

omit [Arith α] in
theorem EnvSim.readF (h : EnvSim P env env' φ) (st : LSState α σ) :
    Sim P.toLS st (readF env) (fun i ω => readF (env' i ω)) (fun _ x => x) :=
  Sim.const rfl fun i ω v hr => by
    show some (Res.ok ((env' i ω).getF v.s), v) = _
    rw [h.F i ω st.s v.s hr.1]; rfl

omit [Arith α] in
theorem setRestart_sim (x : Bool) (st : LSState α σ) :
    Sim (P.toLS (α := α)) st (setRestart x) (fun _ _ => setRestart x) (fun _ u => u) := by
  intro o st' hm
  have hm' : Res.ok () = o ∧ { st with forceRestart := x } = st' := by
    simpa only [setRestart, FM.modify_apply, Option.some.injEq, Prod.mk.injEq] using hm
  obtain ⟨rfl, rfl⟩ := hm'
  exact ⟨_, P.link_nil st.s, fun i ω v hr _ =>
    ⟨{ v with forceRestart := x }, rfl, ⟨hr.1, rfl, hr.2.2⟩, P.adv_nil i v.s⟩⟩

theorem EnvSim.btLoop (h : EnvSim P env env' φ) (tau F0 : α) : ∀ (n : ℕ) (t : α) (st : LSState α σ),
    Sim P.toLS st (btLoop env tau F0 n t) (fun i ω => btLoop (env' i ω) tau F0 n t)
      (fun i => Option.map (φ i)) := by
  intro n
  induction n with
  | zero =>
    intro t st
    simp only [Nlcg.btLoop]
    split
    · exact Sim.none rfl
    · exact Sim.const rfl fun _ _ _ _ => rfl
  | succ n ih =>
    intro t st
    simp only [Nlcg.btLoop]
    split
    · refine Sim.bind (h.evalG t st) fun x st1 _ => Sim.bind (h.readF st1) fun F st2 _ => ?_
      split
      · refine Sim.bind (setRestart_sim false st2) fun _ st3 _ => ?_
        exact Sim.const rfl fun _ _ _ _ => rfl
      · exact ih _ st2
    · exact Sim.const rfl fun _ _ _ _ => rfl

theorem EnvSim.btSearch (h : EnvSim P env env' φ) (p : LSParams α) (fuel : ℕ) (F0 : α)
    (st : LSState α σ) :
    Sim P.toLS st (btSearch env p fuel F0) (fun i ω => btSearch (env' i ω) p fuel F0) φ := by
  simp only [Nlcg.btSearch]
  split
  · exact Sim.throw _ _
  · refine Sim.bind (h.btLoop _ _ _ _ st) fun x st1 _ => ?_
    cases x with
    | some x => exact Sim.pure x _
    | none =>
      refine Sim.congr (m := if st1.forceRestart then FM.throw .descentError
          else do setRestart true; Nlcg.evalG env (lit 0))
        (m' := fun i ω => if st1.forceRestart then FM.throw .descentError
          else do setRestart true; Nlcg.evalG (env' i ω) (lit 0)) ?_ rfl ?_
      · split
        · exact Sim.throw _ _
        · exact Sim.bind (setRestart_sim true st1) fun _ st2 _ => h.evalG _ st2
      · intro i ω v hr
        show (if v.forceRestart then FM.throw .descentError
          else do setRestart true; Nlcg.evalG (env' i ω) (lit 0) : FM _ _) v = _
        rw [hr.2.1]

theorem EnvSim.qlineLoop (h : EnvSim P env env' φ) (F0 slope : α) : ∀ (n : ℕ) (t : α)
    (st : LSState α σ), Sim P.toLS st (qlineLoop env F0 slope n t)
      (fun i ω => qlineLoop (env' i ω) F0 slope n t) (fun _ x => x) := by
  intro n
  induction n with
  | zero => intro t st; exact Sim.none rfl
  | succ n ih =>
    intro t st
    simp only [Nlcg.qlineLoop]
    refine Sim.bind (h.evalG t st) fun x st1 _ => Sim.bind (h.readF st1) fun F st2 _ => ?_
    split
    · exact ih _ st2
    · exact Sim.const rfl fun _ _ _ _ => rfl

theorem EnvSim.qline (h : EnvSim P env env' φ) (p : LSParams α) (fuel : ℕ) (slope : α)
    (st : LSState α σ) :
    Sim P.toLS st (qline env p fuel slope) (fun i ω => qline (env' i ω) p fuel slope) φ := by
  simp only [Nlcg.qline]
  refine Sim.bind (h.readF st) fun F0 st1 _ => Sim.bind (h.qlineLoop _ _ _ _ st1) fun tm st2 _ =>
    Sim.bind (h.evalG _ st2) fun x st3 _ => Sim.bind (h.readF st3) fun F st4 _ => ?_
  split
  · exact Sim.throw _ _
  · exact Sim.bind (setRestart_sim false st4) fun _ st5 _ => Sim.pure x _

theorem EnvSim.lineSearch (h : EnvSim P env env' φ) (p : LSParams α) (fuel : ℕ) (slope : α)
    (st : LSState α σ) :
    Sim P.toLS st (lineSearch env p fuel slope) (fun i ω => lineSearch (env' i ω) p fuel slope) φ := by
  simp only [Nlcg.lineSearch]
  split
  · exact Sim.throw _ _
  · refine Sim.bind (h.readF st) fun F0 st1 _ =>
      Sim.bind (Sim.attempt (h.qline _ _ _ st1)) fun x st2 _ => ?_
    rcases x with e | x
    · cases e with
      | stepError => exact h.btSearch _ _ _ st2
      | _ => exact Sim.throw _ _
    · exact Sim.pure x _

end

end Nlcg
