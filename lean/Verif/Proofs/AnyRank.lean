import Verif.Proofs.Simulation

/-! The number of the rank decides who writes `nlcg.json`, and nothing else. -/

namespace Nlcg
open Spec

set_option linter.unusedSectionVars false

variable {α σ ρ δ : Type} [Arith α]

/-- the same state up to the content of `nlcg.json` -/
def fileWorld (α σ : Type) : World (NState α σ) (NState α σ) where
  R w w' := w.s = w'.s ∧ w.info = w'.info ∧ w.force = w'.force ∧ w.trace = w'.trace
  le _ _ := True
  refl _ := trivial
  trans _ _ := trivial

/-- two programs that differ in what they do to `nlcg.json` at most -/
def Alike {β : Type} (m m' : FM (NState α σ) β) : Prop :=
  ∀ w w', (fileWorld α σ).R w w' → FOut (fileWorld α σ) (fun _ a b => a = b) w (m w) (m' w')

theorem Alike.bind {β γ : Type} {m m' : FM (NState α σ) β} {f f' : β → FM (NState α σ) γ} (h : Alike m m')
    (hf : ∀ a, Alike (f a) (f' a)) : Alike (m >>= f) (m' >>= f') := fun w w' hR =>
  (h w w' hR).bind fun s1 s1' a b hR1 _ hab => by subst hab; exact hf a s1 s1' hR1

theorem Alike.pure {β : Type} (a : β) : Alike (α := α) (σ := σ) (Pure.pure a) (Pure.pure a) := fun _ _ hR =>
  FOut.pure hR rfl

theorem Alike.throw {β : Type} (e : Exc) : Alike (α := α) (σ := σ) (FM.throw e : FM _ β) (FM.throw e) := fun _ _ hR =>
  FOut.throw hR e

theorem Alike.attempt {β : Type} {m m' : FM (NState α σ) β} (h : Alike m m') :
    Alike (FM.attempt m) (FM.attempt m') := fun w w' hR => (h w w' hR).attempt.weaken fun t a b hab => by
  rcases hab with ⟨x, y, rfl, rfl, rfl⟩ | ⟨e, rfl, rfl⟩ <;> rfl

theorem Alike.liftOp {β : Type} (f : σ → Res β × σ) : Alike (α := α) (liftOp f) (liftOp f) := fun w w' hR => by
  obtain ⟨h1, h2, h3, h4⟩ := hR
  unfold Nlcg.liftOp
  rw [← h1]
  refine .some ⟨⟨rfl, h2, h3, h4⟩, trivial, ?_⟩
  cases (f w.s).1 <;> constructor
  rfl

theorem Alike.modify {f g : NState α σ → NState α σ}
    (h : ∀ w w', (fileWorld α σ).R w w' → (fileWorld α σ).R (f w) (g w')) :
    Alike (FM.modify f) (FM.modify g) := fun w w' hR => .some ⟨h w w' hR, trivial, .ok rfl⟩

theorem Alike.emit (e : Ev α) : Alike (σ := σ) (emit e) (emit e) :=
  .modify fun w w' ⟨h1, h2, h3, h4⟩ => ⟨h1, h2, h3, by simp only; rw [h4]⟩

theorem Alike.setInfo (ops : Ops α σ ρ δ) (i : ℕ) (slope : α) : Alike (setInfo ops i slope) (setInfo ops i slope) :=
  .modify fun w w' ⟨h1, h2, h3, h4⟩ => ⟨h1, by simp only; rw [h1], h3, by simp only; rw [h1, h4]⟩

theorem Alike.writeJson (ops : Ops α σ ρ δ) (rank rank' i : ℕ) (slope : α) (pt : ρ) :
    Alike (writeJson ops rank i slope pt) (writeJson ops rank' i slope pt) := fun w w' ⟨h1, h2, h3, h4⟩ => by
  unfold Nlcg.writeJson
  rw [← h1]
  simp only
  generalize (if i % 10 = 0 then ops.gather pt w.s else (Res.ok (), w.s)) = g
  refine .some ⟨⟨rfl, h2, h3, h4⟩, trivial, ?_⟩
  cases g.1 <;> constructor
  trivial

theorem Alike.runSearch (ops : Ops α σ ρ δ) (prm : NlcgParams α) (fuel i : ℕ) (v : Vars α ρ δ) :
    Alike (runSearch ops prm fuel i v) (runSearch ops prm fuel i v) := fun w w' ⟨h1, h2, h3, h4⟩ => by
  unfold Nlcg.runSearch
  rw [← h1, ← h3]
  generalize lineSearch (⟨ops.geo v.pt v.dir, ops.getF⟩ : LSEnv α σ ρ) _ _ _ _ = o
  rcases o with _ | ⟨r, st⟩
  · exact .none
  · cases r
    · exact .some ⟨⟨rfl, h2, rfl, by simp only; rw [h4]⟩, trivial, .ok rfl⟩
    · exact .some ⟨⟨rfl, h2, rfl, by simp only; rw [h4]⟩, trivial, .throw _⟩
    · exact .some ⟨⟨rfl, h2, rfl, h4⟩, trivial, .ub⟩
    · exact .some ⟨⟨rfl, h2, rfl, h4⟩, trivial, .abort⟩

/-- what depends on `info` and `force` only after a `get` -/
theorem Alike.get {β : Type} {f f' : NState α σ → FM (NState α σ) β}
    (h : ∀ u u', (fileWorld α σ).R u u' → Alike (f u) (f' u')) : Alike (FM.get >>= f) (FM.get >>= f') := fun w w' hR =>
  (FOut.get hR).bind fun s1 s1' a b hR1 _ hab => h a b hab.2 s1 s1' hR1

theorem Alike.callRestarted (ops : Ops α σ ρ δ) (i : ℕ) (pt : ρ) :
    Alike (callRestarted ops i pt) (callRestarted ops i pt) :=
  (Alike.liftOp _).bind fun _ => (Alike.emit _).bind fun _ => .pure _

theorem Alike.cgBody (ops : Ops α σ ρ δ) (prm : NlcgParams α) (fuel rank rank' i : ℕ) (v : Vars α ρ δ) :
    Alike (cgBody ops prm fuel rank i v) (cgBody ops prm fuel rank' i v) := by
  unfold Nlcg.cgBody
  refine (Alike.writeJson ops rank rank' i _ _).bind fun _ => (Alike.setInfo ops i _).bind fun _ =>
    (Alike.liftOp _).bind fun _ => (Alike.runSearch ops prm fuel i v).bind fun r => (Alike.liftOp _).bind fun pt => ?_
  split
  · exact fun w w' hR => FOut.ub hR
  · refine .get fun u u' hu => ?_
    rw [hu.2.2.1]
    split
    · exact .callRestarted _ _ _
    · refine (Alike.liftOp _).bind fun a => ?_
      obtain ⟨fr, slope, d⟩ := a
      refine (Alike.emit _).bind fun _ => ?_
      split
      · refine (Alike.callRestarted _ _ _).bind fun v' => Alike.bind (Alike.modify ?_) fun _ => .pure _
        exact fun w w' ⟨h1, h2, h3, h4⟩ => ⟨h1, h2, rfl, h4⟩
      · exact .pure _

theorem Alike.cgSuccess (ops : Ops α σ ρ δ) (rank rank' i : ℕ) (v : Vars α ρ δ) :
    Alike (cgSuccess ops rank i v) (cgSuccess ops rank' i v) := by
  unfold Nlcg.cgSuccess
  refine (Alike.setInfo ops i _).bind fun _ => (Alike.writeJson ops rank rank' i _ _).bind fun _ =>
    (Alike.liftOp _).bind fun _ => Alike.bind (Alike.modify ?_) fun _ => .get fun u u' hu => ?_
  · exact fun w w' ⟨h1, h2, h3, h4⟩ => ⟨h1, by simp only; rw [h2], h3, h4⟩
  · rw [hu.2.1]; exact .pure _

theorem Alike.cgLoop (ops : Ops α σ ρ δ) (prm : NlcgParams α) (fuel rank rank' : ℕ) : ∀ (n i : ℕ) (v : Vars α ρ δ),
    Alike (cgLoop ops prm fuel rank n i v) (cgLoop ops prm fuel rank' n i v)
  | 0, i, v => by
    unfold Nlcg.cgLoop
    exact .get fun u u' hu => by rw [hu.2.1]; exact .pure _
  | n + 1, i, v => by
    unfold Nlcg.cgLoop
    refine (Alike.emit _).bind fun _ => ?_
    split
    · exact .cgSuccess _ _ _ _ _
    · refine (Alike.cgBody ops prm fuel rank rank' i v).attempt.bind fun a => ?_
      rcases a with e | v'
      · cases e
        all_goals first
          | exact .throw _
          | exact .get fun u u' hu => by rw [hu.2.1]; exact .pure _
      · exact Alike.cgLoop ops prm fuel rank rank' n (i + 1) v'

/-- ranks with the same backend do the same -/
theorem nlcg_alike (ops : Ops α σ ρ δ) (prm : NlcgParams α) (fuel rank rank' : ℕ) :
    Alike (nlcg ops prm fuel rank) (nlcg ops prm fuel rank') := by
  unfold nlcg
  refine Alike.bind (Alike.modify ?_) fun _ => (Alike.liftOp _).bind fun _ => Alike.bind (Alike.modify ?_) fun _ =>
    (Alike.liftOp _).bind fun pt => (Alike.liftOp _).bind fun a => ?_
  · exact fun w w' ⟨h1, h2, h3, h4⟩ => ⟨h1, rfl, h3, rfl⟩
  · exact fun w w' ⟨h1, h2, h3, h4⟩ => ⟨h1, h2, h3, h4⟩
  · obtain ⟨slope, d⟩ := a
    refine Alike.bind (Alike.modify ?_) fun _ => .cgLoop _ _ _ _ _ _ _ _
    exact fun w w' ⟨h1, h2, h3, h4⟩ => ⟨h1, h2, rfl, h4⟩

end Nlcg
