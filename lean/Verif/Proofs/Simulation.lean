import Verif.Spec.Simulation

/-! Related operations give related runs of the line search and of the driver. -/

namespace Nlcg
open Arith Spec

variable {τ τ' β γ β' γ' : Type}

section
variable {W : World τ τ'}

theorem Spec.FOut.bind {Q : τ → β → γ → Prop} {Q' : τ → β' → γ' → Prop} {s : τ} {s' : τ'} {m : FM τ β} {m' : FM τ' γ}
    {f : β → FM τ β'} {f' : γ → FM τ' γ'} (h : FOut W Q s (m s) (m' s'))
    (hf : ∀ s1 s1' a b, W.R s1 s1' → W.le s s1 → Q s1 a b → FOut W Q' s1 (f a s1) (f' b s1')) :
    FOut W Q' s ((m >>= f) s) ((m' >>= f') s') := by
  rw [FM.bind_apply, FM.bind_apply]
  generalize m s = o at h
  generalize m' s' = o' at h
  cases h with
  | none => exact .none
  | some h =>
    rename_i x y
    obtain ⟨h1, h2, h3⟩ := h
    obtain ⟨r, s1⟩ := x
    obtain ⟨r', s1'⟩ := y
    simp only at h1 h2 h3
    cases h3 with
    | ok hq =>
      rename_i a b
      have := hf s1 s1' a b h1 h2 hq
      simp only
      generalize f a s1 = u at this
      generalize f' b s1' = u' at this
      cases this with
      | none => exact .none
      | some g => exact .some ⟨g.1, W.trans h2 g.2.1, g.2.2⟩
    | throw e => exact .some ⟨h1, h2, .throw e⟩
    | ub => exact .some ⟨h1, h2, .ub⟩
    | abort => exact .some ⟨h1, h2, .abort⟩

theorem FOut.pure {Q : τ → β → γ → Prop} {s : τ} {s' : τ'} {a : β} {b : γ} (hR : W.R s s') (h : Q s a b) :
    FOut W Q s ((Pure.pure a : FM τ β) s) ((Pure.pure b : FM τ' γ) s') := .some ⟨hR, W.refl s, .ok h⟩

theorem FOut.throw {Q : τ → β → γ → Prop} {s : τ} {s' : τ'} (hR : W.R s s') (e : Exc) :
    FOut W Q s ((FM.throw e : FM τ β) s) ((FM.throw e : FM τ' γ) s') := .some ⟨hR, W.refl s, .throw e⟩

theorem FOut.ub {Q : τ → β → γ → Prop} {s : τ} {s' : τ'} (hR : W.R s s') :
    FOut W Q s ((FM.ub : FM τ β) s) ((FM.ub : FM τ' γ) s') := .some ⟨hR, W.refl s, .ub⟩

theorem FOut.get {s : τ} {s' : τ'} (hR : W.R s s') :
    FOut W (fun t a b => t = a ∧ W.R a b) s ((FM.get : FM τ τ) s) ((FM.get : FM τ' τ') s') :=
  .some ⟨hR, W.refl s, .ok ⟨rfl, hR⟩⟩

theorem FOut.modify {s : τ} {s' : τ'} {f : τ → τ} {f' : τ' → τ'} (hR : W.R (f s) (f' s')) (hl : W.le s (f s)) :
    FOut W (fun _ _ _ => True) s (FM.modify f s) (FM.modify f' s') := .some ⟨hR, hl, .ok trivial⟩

theorem Spec.FOut.attempt {Q : τ → β → γ → Prop} {s : τ} {s' : τ'} {m : FM τ β} {m' : FM τ' γ}
    (h : FOut W Q s (m s) (m' s')) :
    FOut W (fun t a b => (∃ x y, a = .ok x ∧ b = .ok y ∧ Q t x y) ∨ ∃ e, a = .error e ∧ b = .error e) s
      (FM.attempt m s) (FM.attempt m' s') := by
  rw [FM.attempt, FM.attempt]
  generalize m s = o at h
  generalize m' s' = o' at h
  cases h with
  | none => exact .none
  | some h =>
    rename_i x y
    obtain ⟨h1, h2, h3⟩ := h
    obtain ⟨r, s1⟩ := x
    obtain ⟨r', s1'⟩ := y
    simp only at h1 h2 h3
    cases h3 with
    | ok hq => exact .some ⟨h1, h2, .ok (.inl ⟨_, _, rfl, rfl, hq⟩)⟩
    | throw e => exact .some ⟨h1, h2, .ok (.inr ⟨e, rfl, rfl⟩)⟩
    | ub => exact .some ⟨h1, h2, .ub⟩
    | abort => exact .some ⟨h1, h2, .abort⟩

theorem Spec.FOut.weaken {Q Q' : τ → β → γ → Prop} {s : τ} {o : Option (Res β × τ)} {o' : Option (Res γ × τ')}
    (h : FOut W Q s o o') (hq : ∀ t a b, Q t a b → Q' t a b) : FOut W Q' s o o' := by
  cases h with
  | none => exact .none
  | some h =>
    rename_i x y
    refine .some ⟨h.1, h.2.1, ?_⟩
    have h3 := h.2.2
    cases hx : x.1 <;> cases hy : y.1 <;> rw [hx, hy] at h3 <;> cases h3
    · rename_i q
      exact .ok (hq _ _ _ q)
    · exact .throw _
    · exact .ub
    · exact .abort

end

/-! ## Line search -/

variable {α σ σ' ρ ρ' δ δ' : Type} [Arith α]

/-- related states of a line search -/
def lsWorld (α : Type) (W : World σ σ') : World (LSState α σ) (LSState α σ') where
  R s s' := W.R s.s s'.s ∧ s.forceRestart = s'.forceRestart
  le s t := W.le s.s t.s
  refl s := W.refl s.s
  trans h h' := W.trans h h'

section
variable {W : World σ σ'} {env : LSEnv α σ ρ} {env' : LSEnv α σ' ρ'} {P : σ → ρ → ρ' → Prop} {s0 : σ}

/-- what the line search needs: related steps from the state `s0` on, equal free energies -/
structure LSRel (W : World σ σ') (env : LSEnv α σ ρ) (env' : LSEnv α σ' ρ') (P : σ → ρ → ρ' → Prop) (s0 : σ) :
    Prop where
  G : ∀ t s s', W.R s s' → W.le s0 s → Out W P s (env.G t s) (env'.G t s')
  F : ∀ s s', W.R s s' → env.getF s = env'.getF s'
  mono : ∀ {s t p p'}, W.le s t → P s p p' → P t p p'

/-- a result of the line search -/
def lsP (P : σ → ρ → ρ' → Prop) : LSState α σ → ρ → ρ' → Prop := fun s => P s.s

theorem evalG_rel (h : LSRel W env env' P s0) (t : α) {s : LSState α σ} {s' : LSState α σ'}
    (hR : (lsWorld α W).R s s') (hl : W.le s0 s.s) :
    FOut (lsWorld α W) (lsP P) s (evalG env t s) (evalG env' t s') := by
  have g := h.G t s.s s'.s hR.1 hl
  exact .some ⟨⟨g.1, hR.2⟩, g.2.1, g.2.2⟩

theorem readF_rel (h : LSRel W env env' P s0) {s : LSState α σ} {s' : LSState α σ'}
    (hR : (lsWorld α W).R s s') :
    FOut (lsWorld α W) (fun _ a b => a = b) s (readF env s) (readF env' s') :=
  .some ⟨hR, W.refl _, .ok (h.F _ _ hR.1)⟩

theorem setRestart_rel (b : Bool) {s : LSState α σ} {s' : LSState α σ'} (hR : (lsWorld α W).R s s') :
    FOut (lsWorld α W) (fun _ _ _ => True) s (setRestart b s) (setRestart b s') :=
  FOut.modify ⟨hR.1, rfl⟩ (W.refl _)

theorem btLoop_rel (h : LSRel W env env' P s0) (tau F0 : α) : ∀ (n : ℕ) (t : α) (s : LSState α σ) (s' : LSState α σ'),
    (lsWorld α W).R s s' → W.le s0 s.s →
    FOut (lsWorld α W) (fun t a b => (a = none ∧ b = none) ∨ ∃ x y, a = some x ∧ b = some y ∧ P t.s x y) s
      (btLoop env tau F0 n t s) (btLoop env' tau F0 n t s')
  | 0, t, s, s', hR, hl => by
    unfold btLoop
    split
    · exact .none
    · exact FOut.pure hR (.inl ⟨rfl, rfl⟩)
  | n + 1, t, s, s', hR, hl => by
    unfold btLoop
    split
    · refine (evalG_rel h t hR hl).bind fun s1 s1' a b hR1 hl1 hab => ?_
      refine (readF_rel h hR1).bind fun s2 s2' F F' hR2 hl2 hF => ?_
      subst hF
      split
      · refine (setRestart_rel false hR2).bind fun s3 s3' _ _ hR3 hl3 _ => ?_
        exact FOut.pure hR3 (.inr ⟨a, b, rfl, rfl, h.mono (W.trans hl2 hl3) hab⟩)
      · exact btLoop_rel h tau F0 n _ s2 s2' hR2 (W.trans (W.trans hl hl1) hl2)
    · exact FOut.pure hR (.inl ⟨rfl, rfl⟩)

theorem btSearch_rel (h : LSRel W env env' P s0) (p : LSParams α) (fuel : ℕ) (F0 : α) {s : LSState α σ}
    {s' : LSState α σ'} (hR : (lsWorld α W).R s s') (hl : W.le s0 s.s) :
    FOut (lsWorld α W) (lsP P) s (btSearch env p fuel F0 s) (btSearch env' p fuel F0 s') := by
  unfold btSearch
  split
  · exact FOut.throw hR _
  · refine (btLoop_rel h p.tau F0 fuel p.tTrial s s' hR hl).bind fun s1 s1' a b hR1 hl1 hab => ?_
    rcases hab with ⟨rfl, rfl⟩ | ⟨x, y, rfl, rfl, hxy⟩
    · refine (FOut.get hR1).bind fun s2 s2' u v hR2 hl2 huv => ?_
      obtain ⟨rfl, huv⟩ := huv
      rw [huv.2]
      split
      · exact FOut.throw hR2 _
      · refine (setRestart_rel true hR2).bind fun s3 s3' _ _ hR3 hl3 _ => ?_
        exact evalG_rel h _ hR3 (W.trans (W.trans (W.trans hl hl1) hl2) hl3)
    · exact FOut.pure hR1 hxy

theorem qlineLoop_rel (h : LSRel W env env' P s0) (F0 slope : α) : ∀ (n : ℕ) (t : α) (s : LSState α σ)
    (s' : LSState α σ'), (lsWorld α W).R s s' → W.le s0 s.s →
    FOut (lsWorld α W) (fun _ a b => a = b) s (qlineLoop env F0 slope n t s) (qlineLoop env' F0 slope n t s')
  | 0, t, s, s', hR, hl => by
    unfold qlineLoop
    exact .none
  | n + 1, t, s, s', hR, hl => by
    unfold qlineLoop
    refine (evalG_rel h t hR hl).bind fun s1 s1' a b hR1 hl1 hab => ?_
    refine (readF_rel h hR1).bind fun s2 s2' F F' hR2 hl2 hF => ?_
    subst hF
    simp only
    split
    · exact qlineLoop_rel h F0 slope n _ s2 s2' hR2 (W.trans (W.trans hl hl1) hl2)
    · exact FOut.pure hR2 rfl

theorem qline_rel (h : LSRel W env env' P s0) (p : LSParams α) (fuel : ℕ) (slope : α) {s : LSState α σ}
    {s' : LSState α σ'} (hR : (lsWorld α W).R s s') (hl : W.le s0 s.s) :
    FOut (lsWorld α W) (lsP P) s (qline env p fuel slope s) (qline env' p fuel slope s') := by
  unfold qline
  refine (readF_rel h hR).bind fun s1 s1' F0 F0' hR1 hl1 hF => ?_
  subst hF
  refine (qlineLoop_rel h F0 slope fuel p.tTrial s1 s1' hR1 (W.trans hl hl1)).bind
    fun s2 s2' t t' hR2 hl2 ht => ?_
  subst ht
  refine (evalG_rel h t hR2 (W.trans (W.trans hl hl1) hl2)).bind fun s3 s3' a b hR3 hl3 hab => ?_
  refine (readF_rel h hR3).bind fun s4 s4' F1 F1' hR4 hl4 hF => ?_
  subst hF
  split
  · exact FOut.throw hR4 _
  · refine (setRestart_rel false hR4).bind fun s5 s5' _ _ hR5 hl5 _ => ?_
    exact FOut.pure hR5 (h.mono (W.trans hl4 hl5) hab)

theorem lineSearch_rel (h : LSRel W env env' P s0) (p : LSParams α) (fuel : ℕ) (slope : α) {s : LSState α σ}
    {s' : LSState α σ'} (hR : (lsWorld α W).R s s') (hl : W.le s0 s.s) :
    FOut (lsWorld α W) (lsP P) s (lineSearch env p fuel slope s) (lineSearch env' p fuel slope s') := by
  unfold lineSearch
  split
  · exact FOut.throw hR _
  · refine (readF_rel h hR).bind fun s1 s1' F0 F0' hR1 hl1 hF => ?_
    subst hF
    refine (qline_rel h p fuel slope hR1 (W.trans hl hl1)).attempt.bind fun s2 s2' a b hR2 hl2 hab => ?_
    rcases hab with ⟨x, y, rfl, rfl, hxy⟩ | ⟨e, rfl, rfl⟩
    · exact FOut.pure hR2 hxy
    · cases e
      all_goals first
        | exact FOut.throw hR2 _
        | exact btSearch_rel h p fuel F0 hR2 (W.trans (W.trans hl hl1) hl2)

end

/-! ## Driver -/

/-- related states of a run: related backends, and the same output, variables and trace -/
def runWorld (α : Type) (W : World σ σ') : World (NState α σ) (NState α σ') where
  R w w' := W.R w.s w'.s ∧ w.file = w'.file ∧ w.info = w'.info ∧ w.force = w'.force ∧ w.trace = w'.trace
  le w v := W.le w.s v.s
  refl w := W.refl w.s
  trans h h' := W.trans h h'

section
variable {A : Ops α σ ρ δ} {B : Ops α σ' ρ' δ'}

/-- related variables of the driver -/
structure VRel (S : SimPair A B) (s : σ) (v : Vars α ρ δ) (v' : Vars α ρ' δ') : Prop where
  pt : S.P0 s v.pt v'.pt
  dir : S.D s v.pt v'.pt v.dir v'.dir
  slope : v.slope = v'.slope
  fr : v.fr = v'.fr

theorem VRel.mono {S : SimPair A B} {s t : σ} {v : Vars α ρ δ} {v' : Vars α ρ' δ'} (h : VRel S s v v')
    (hl : S.W.le s t) : VRel S t v v' := ⟨S.P0_mono hl h.pt, S.D_mono hl h.dir, h.slope, h.fr⟩

theorem liftOp_rel {W : World σ σ'} {β γ : Type} {f : σ → Res β × σ} {f' : σ' → Res γ × σ'}
    {Q : σ → β → γ → Prop} {w : NState α σ} {w' : NState α σ'} (hR : (runWorld α W).R w w')
    (h : Out W Q w.s (f w.s) (f' w'.s)) :
    FOut (runWorld α W) (fun t a b => Q t.s a b) w (liftOp f w) (liftOp f' w') :=
  .some ⟨⟨h.1, hR.2⟩, h.2.1, h.2.2⟩

theorem emit_rel {W : World σ σ'} (e : Ev α) {w : NState α σ} {w' : NState α σ'} (hR : (runWorld α W).R w w') :
    FOut (runWorld α W) (fun _ _ _ => True) w (emit e w) (emit e w') :=
  FOut.modify ⟨hR.1, hR.2.1, hR.2.2.1, hR.2.2.2.1, by simp only; rw [hR.2.2.2.2]⟩ (W.refl _)

theorem setInfo_rel (S : SimPair A B) (i : ℕ) (slope : α) {w : NState α σ} {w' : NState α σ'}
    (hR : (runWorld α S.W).R w w') :
    FOut (runWorld α S.W) (fun _ _ _ => True) w (setInfo A i slope w) (setInfo B i slope w') := by
  refine FOut.modify ⟨hR.1, hR.2.1, ?_, hR.2.2.2.1, ?_⟩ (S.W.refl _)
  · simp only
    rw [S.getF hR.1, S.getS hR.1]
  · simp only
    rw [S.getF hR.1, S.getS hR.1, hR.2.2.2.2]

theorem writeJson_rel (S : SimPair A B) (rank i : ℕ) (slope : α) {w : NState α σ} {w' : NState α σ'} {p : ρ} {p' : ρ'}
    (hR : (runWorld α S.W).R w w') (hp : S.P0 w.s p p') :
    FOut (runWorld α S.W) (fun _ _ _ => True) w (writeJson A rank i slope p w) (writeJson B rank i slope p' w') := by
  have key : Out S.W (fun _ _ _ => True) w.s (if i % 10 = 0 then A.gather p w.s else (.ok (), w.s))
      (if i % 10 = 0 then B.gather p' w'.s else (.ok (), w'.s)) := by
    split
    · exact S.gather hR.1 hp
    · exact ⟨hR.1, S.W.refl _, .ok trivial⟩
  unfold writeJson
  simp only
  rw [S.getF hR.1, S.getS hR.1, hR.2.1]
  generalize (if i % 10 = 0 then A.gather p w.s else (Res.ok (), w.s)) = g at key
  generalize (if i % 10 = 0 then B.gather p' w'.s else (Res.ok (), w'.s)) = g' at key
  obtain ⟨r, t⟩ := g
  obtain ⟨r', t'⟩ := g'
  obtain ⟨k1, k2, k3⟩ := key
  have hrr : r = r' := by cases k3 <;> rfl
  subst hrr
  exact .some ⟨⟨k1, rfl, hR.2.2⟩, k2, k3⟩

theorem runSearch_rel (S : SimPair A B) (prm : NlcgParams α) (fuel i : ℕ) {w : NState α σ} {w' : NState α σ'}
    {v : Vars α ρ δ} {v' : Vars α ρ' δ'} (hR : (runWorld α S.W).R w w') (hv : VRel S w.s v v') :
    FOut (runWorld α S.W) (fun t a b => S.P1 t.s v.dir v'.dir a b) w (runSearch A prm fuel i v w) (runSearch B prm fuel i v' w') := by
  have h : LSRel S.W (⟨A.geo v.pt v.dir, A.getF⟩ : LSEnv α σ ρ) ⟨B.geo v'.pt v'.dir, B.getF⟩
      (fun t => S.P1 t v.dir v'.dir) w.s :=
    { G := fun t s s' hs hl => S.geo t hs (S.P0_mono hl hv.pt) (S.D_mono hl hv.dir)
      F := fun s s' hs => S.getF hs
      mono := S.P1_mono }
  have key := lineSearch_rel h { tTrial := lit (2 / 10), tau := prm.tau } fuel v.slope
    (s := { s := w.s, forceRestart := w.force, evals := [] })
    (s' := { s := w'.s, forceRestart := w'.force, evals := [] }) ⟨hR.1, hR.2.2.2.1⟩ (S.W.refl _)
  unfold runSearch
  rw [← hv.slope]
  generalize lineSearch (⟨A.geo v.pt v.dir, A.getF⟩ : LSEnv α σ ρ) _ _ _ _ = o at key
  generalize lineSearch (⟨B.geo v'.pt v'.dir, B.getF⟩ : LSEnv α σ' ρ') _ _ _ _ = o' at key
  cases key with
  | none => exact .none
  | some k =>
    rename_i x y
    obtain ⟨r, t⟩ := x
    obtain ⟨r', t'⟩ := y
    obtain ⟨⟨k1, k1'⟩, k2, k3⟩ := k
    simp only at k1 k1' k2 k3
    cases k3 with
    | ok hq =>
      refine .some ⟨⟨k1, hR.2.1, hR.2.2.1, k1', ?_⟩, k2, .ok hq⟩
      simp only
      rw [hR.2.2.2.2, hR.2.2.2.1, k1']
    | throw e =>
      refine .some ⟨⟨k1, hR.2.1, hR.2.2.1, k1', ?_⟩, k2, .throw e⟩
      simp only
      rw [hR.2.2.2.2, hR.2.2.2.1]
    | ub => exact .some ⟨⟨k1, hR.2.1, hR.2.2.1, k1', hR.2.2.2.2⟩, k2, .ub⟩
    | abort => exact .some ⟨⟨k1, hR.2.1, hR.2.2.1, k1', hR.2.2.2.2⟩, k2, .abort⟩

theorem callRestarted_rel (S : SimPair A B) (i : ℕ) {w : NState α σ} {w' : NState α σ'} {p : ρ} {p' : ρ'}
    (hR : (runWorld α S.W).R w w') (hp : S.P0 w.s p p') :
    FOut (runWorld α S.W) (fun t a b => VRel S t.s a b) w (callRestarted A i p w) (callRestarted B i p' w') := by
  unfold callRestarted
  refine (liftOp_rel hR (S.restarted hR.1 hp)).bind fun w1 w1' a b hR1 hl1 hab => ?_
  obtain ⟨slope, d⟩ := a
  obtain ⟨slope', d'⟩ := b
  obtain ⟨rfl, hd⟩ := hab
  refine (emit_rel _ hR1).bind fun w2 w2' _ _ hR2 hl2 _ => ?_
  exact FOut.pure hR2 ⟨S.P0_mono (S.W.trans hl1 hl2) hp, S.D_mono hl2 hd, rfl, rfl⟩

theorem cgBody_rel (S : SimPair A B) (prm : NlcgParams α) (fuel rank i : ℕ) {w : NState α σ} {w' : NState α σ'}
    {v : Vars α ρ δ} {v' : Vars α ρ' δ'} (hR : (runWorld α S.W).R w w') (hv : VRel S w.s v v') :
    FOut (runWorld α S.W) (fun t a b => VRel S t.s a b) w (cgBody A prm fuel rank i v w)
      (cgBody B prm fuel rank i v' w') := by
  unfold cgBody
  rw [← hv.slope]
  refine (writeJson_rel S rank i v.slope hR hv.pt).bind fun w1 w1' _ _ hR1 hl1 _ => ?_
  refine (setInfo_rel S i v.slope hR1).bind fun w2 w2' _ _ hR2 hl2 _ => ?_
  refine (liftOp_rel hR2 (S.hostPrint hR2.1)).bind fun w3 w3' _ _ hR3 hl3 _ => ?_
  have hv3 := hv.mono (S.W.trans (S.W.trans hl1 hl2) hl3)
  refine (runSearch_rel S prm fuel i hR3 hv3).bind fun w4 w4' r r' hR4 hl4 hr => ?_
  refine (liftOp_rel hR4 (S.refresh hR4.1 hr)).bind fun w5 w5' p p' hR5 hl5 hp => ?_
  split
  · exact FOut.ub hR5
  · refine (FOut.get hR5).bind fun w6 w6' u u' hR6 hl6 hu => ?_
    obtain ⟨rfl, hu⟩ := hu
    rw [hu.2.2.2.1]
    have hp6 := S.P_mono hl6 hp
    split
    · exact callRestarted_rel S i hR6 (S.weaken hp6)
    · rw [← hv.fr]
      refine (liftOp_rel hR6 (S.conjugated v.fr hR6.1 hp6)).bind fun w7 w7' a b hR7 hl7 hab => ?_
      obtain ⟨fr, slope, d⟩ := a
      obtain ⟨fr', slope', d'⟩ := b
      obtain ⟨h1, h2, hd⟩ := hab
      simp only at h1 h2 hd
      subst h1 h2
      refine (emit_rel _ hR7).bind fun w8 w8' _ _ hR8 hl8 _ => ?_
      have hp8 := S.P_mono (S.W.trans hl7 hl8) hp6
      split
      · refine (callRestarted_rel S i hR8 (S.weaken hp8)).bind fun w9 w9' x y hR9 hl9 hxy => ?_
        refine Spec.FOut.bind (Q := fun _ _ _ => True) ?_ fun wA wA' _ _ hRA hlA _ => ?_
        · exact FOut.modify ⟨hR9.1, hR9.2.1, hR9.2.2.1, rfl, hR9.2.2.2.2⟩ (S.W.refl _)
        · exact FOut.pure hRA (hxy.mono hlA)
      · exact FOut.pure hR8 ⟨S.weaken hp8, S.D_mono hl8 hd, rfl, rfl⟩

theorem cgSuccess_rel (S : SimPair A B) (rank i : ℕ) {w : NState α σ} {w' : NState α σ'}
    {v : Vars α ρ δ} {v' : Vars α ρ' δ'} (hR : (runWorld α S.W).R w w') (hv : VRel S w.s v v') :
    FOut (runWorld α S.W) (fun _ a b => a = b) w (cgSuccess A rank i v w) (cgSuccess B rank i v' w') := by
  unfold cgSuccess
  rw [← hv.slope]
  refine (setInfo_rel S i v.slope hR).bind fun w1 w1' _ _ hR1 hl1 _ => ?_
  refine (writeJson_rel S rank i v.slope hR1 (S.P0_mono hl1 hv.pt)).bind fun w2 w2' _ _ hR2 hl2 _ => ?_
  refine (liftOp_rel hR2 (S.hostPrint hR2.1)).bind fun w3 w3' _ _ hR3 hl3 _ => ?_
  have hc : (runWorld α S.W).R { w3 with info := { w3.info with converged := true } }
      { w3' with info := { w3'.info with converged := true } } :=
    ⟨hR3.1, hR3.2.1, by simp only; rw [hR3.2.2.1], hR3.2.2.2.1, hR3.2.2.2.2⟩
  refine Spec.FOut.bind (Q := fun _ _ _ => True) ?_ fun w4 w4' _ _ hR4 hl4 _ => ?_
  · exact FOut.modify hc (S.W.refl _)
  · refine (FOut.get hR4).bind fun w5 w5' u u' hR5 hl5 hu => ?_
    obtain ⟨rfl, hu⟩ := hu
    exact FOut.pure hR5 hu.2.2.1

theorem cgLoop_rel (S : SimPair A B) (prm : NlcgParams α) (fuel rank : ℕ) : ∀ (n i : ℕ) (w : NState α σ)
    (w' : NState α σ') (v : Vars α ρ δ) (v' : Vars α ρ' δ'), (runWorld α S.W).R w w' → VRel S w.s v v' →
    FOut (runWorld α S.W) (fun _ a b => a = b) w (cgLoop A prm fuel rank n i v w)
      (cgLoop B prm fuel rank n i v' w')
  | 0, i, w, w', v, v', hR, hv => by
    unfold cgLoop
    refine (FOut.get hR).bind fun w5 w5' u u' hR5 hl5 hu => ?_
    obtain ⟨rfl, hu⟩ := hu
    exact FOut.pure hR5 hu.2.2.1
  | n + 1, i, w, w', v, v', hR, hv => by
    unfold cgLoop
    rw [← hv.slope]
    refine (emit_rel _ hR).bind fun w1 w1' _ _ hR1 hl1 _ => ?_
    split
    · exact cgSuccess_rel S rank i hR1 (hv.mono hl1)
    · refine (cgBody_rel S prm fuel rank i hR1 (hv.mono hl1)).attempt.bind fun w2 w2' a b hR2 hl2 hab => ?_
      rcases hab with ⟨x, y, rfl, rfl, hxy⟩ | ⟨e, rfl, rfl⟩
      · exact cgLoop_rel S prm fuel rank n (i + 1) w2 w2' x y hR2 hxy
      · cases e
        all_goals first
          | exact FOut.throw hR2 _
          | (refine (FOut.get hR2).bind fun w5 w5' u u' hR5 hl5 hu => ?_
             obtain ⟨rfl, hu⟩ := hu
             exact FOut.pure hR5 hu.2.2.1)

/-- corresponding backends give the same run -/
theorem nlcg_rel_pair (S : SimPair A B) (prm : NlcgParams α) (fuel rank : ℕ) {w : NState α σ} {w' : NState α σ'}
    (hR : (runWorld α S.W).R w w') :
    FOut (runWorld α S.W) (fun _ a b => a = b) w (nlcg A prm fuel rank w) (nlcg B prm fuel rank w') := by
  unfold nlcg
  refine Spec.FOut.bind (Q := fun _ _ _ => True) ?_ fun w1 w1' _ _ hR1 hl1 _ => ?_
  · exact FOut.modify ⟨hR.1, hR.2.1, rfl, hR.2.2.2.1, rfl⟩ (S.W.refl _)
  refine (liftOp_rel hR1 (S.construct hR1.1)).bind fun w2 w2' _ _ hR2 hl2 _ => ?_
  refine Spec.FOut.bind (Q := fun _ _ _ => True) ?_ fun w3 w3' _ _ hR3 hl3 _ => ?_
  · exact FOut.modify ⟨hR2.1, rfl, hR2.2.2.1, hR2.2.2.2.1, hR2.2.2.2.2⟩ (S.W.refl _)
  refine (liftOp_rel hR3 (S.setup hR3.1)).bind fun w4 w4' p p' hR4 hl4 hp => ?_
  refine (liftOp_rel hR4 (S.restarted hR4.1 hp)).bind fun w5 w5' a b hR5 hl5 hab => ?_
  obtain ⟨slope, d⟩ := a
  obtain ⟨slope', d'⟩ := b
  obtain ⟨h1, hd⟩ := hab
  simp only at h1 hd
  subst h1
  refine Spec.FOut.bind (Q := fun _ _ _ => True) ?_ fun w6 w6' _ _ hR6 hl6 _ => ?_
  · exact FOut.modify ⟨hR5.1, hR5.2.1, hR5.2.2.1, rfl, hR5.2.2.2.2⟩ (S.W.refl _)
  exact cgLoop_rel S prm fuel rank _ 0 w6 w6' _ _ hR6
    ⟨S.P0_mono (S.W.trans hl5 hl6) hp, S.D_mono hl6 hd, rfl, rfl⟩

/-- relations that do not depend on each other -/
def Spec.Sim.pair (S : Sim A B) : SimPair A B where
  W := S.W
  P0 := S.P0
  P1 s d d' p p' := S.P s p p' ∧ S.D s d d'
  P s d d' p p' := S.P s p p' ∧ S.D s d d'
  D s _ _ d d' := S.D s d d'
  weaken h := S.weaken h.1
  P0_mono := S.P0_mono
  P1_mono hl h := ⟨S.P_mono hl h.1, S.D_mono hl h.2⟩
  P_mono hl h := ⟨S.P_mono hl h.1, S.D_mono hl h.2⟩
  D_mono := S.D_mono
  construct := S.construct
  setup := S.setup
  restarted := S.restarted
  conjugated fr hR h := S.conjugated fr hR h.1 h.2
  geo t hR hp hd := by
    have h := S.geo t hR hp hd
    refine ⟨h.1, h.2.1, ?_⟩
    have hd' := S.D_mono h.2.1 hd
    obtain ⟨-, -, h3⟩ := h
    revert h3 hd'
    generalize A.geo _ _ t _ = x
    generalize B.geo _ _ t _ = y
    obtain ⟨x1, x2⟩ := x
    obtain ⟨y1, y2⟩ := y
    intro hd' h3
    cases h3 with
    | ok q => exact .ok ⟨q, hd'⟩
    | throw e => exact .throw e
    | ub => exact .ub
    | abort => exact .abort
  refresh hR hp := by
    have h := S.refresh hR hp.1
    refine ⟨h.1, h.2.1, ?_⟩
    have hd' := S.D_mono h.2.1 hp.2
    obtain ⟨-, -, h3⟩ := h
    revert h3 hd'
    generalize A.refresh _ _ = x
    generalize B.refresh _ _ = y
    obtain ⟨x1, x2⟩ := x
    obtain ⟨y1, y2⟩ := y
    intro hd' h3
    cases h3 with
    | ok q => exact .ok ⟨q, hd'⟩
    | throw e => exact .throw e
    | ub => exact .ub
    | abort => exact .abort
  gather := S.gather
  hostPrint := S.hostPrint
  getF := S.getF
  getS := S.getS

/-- corresponding backends give the same run -/
theorem nlcg_rel (S : Sim A B) (prm : NlcgParams α) (fuel rank : ℕ) {w : NState α σ} {w' : NState α σ'}
    (hR : (runWorld α S.W).R w w') :
    FOut (runWorld α S.W) (fun _ a b => a = b) w (nlcg A prm fuel rank w) (nlcg B prm fuel rank w') :=
  nlcg_rel_pair S.pair prm fuel rank hR

end

end Nlcg
