import Verif.Proofs.RunCongr

/-! A backend whose steps are sometimes undefined, and otherwise those of another one: unless the run ends in
undefined behaviour it is the run of the other one. -/

namespace Nlcg
open Arith

/-- undefined, or the same -/
def Below {σ β : Type} (x y : Option (Res β × σ)) : Prop := (∃ s, x = some (.ub, s)) ∨ x = y

section
variable {σ β γ : Type}

theorem Below.refl (x : Option (Res β × σ)) : Below x x := .inr rfl

theorem Below.bind {m m' : FM σ β} {f f' : β → FM σ γ} {s : σ} (h : Below (m s) (m' s))
    (hf : ∀ b t, Below (f b t) (f' b t)) : Below ((m >>= f) s) ((m' >>= f') s) := by
  rw [FM.bind_apply, FM.bind_apply]
  rcases h with ⟨t, ht⟩ | h
  · rw [ht]; exact .inl ⟨t, rfl⟩
  · rw [← h]
    rcases m s with _ | ⟨_ | _ | _ | _, t⟩
    · exact .refl _
    · exact hf _ _
    all_goals exact .refl _

theorem Below.attempt {m m' : FM σ β} {s : σ} (h : Below (m s) (m' s)) :
    Below (FM.attempt m s) (FM.attempt m' s) := by
  rw [FM.attempt, FM.attempt]
  rcases h with ⟨t, ht⟩ | h
  · rw [ht]; exact .inl ⟨t, rfl⟩
  · rw [h]; exact .refl _

end

variable {α σ ρ δ : Type} [Arith α]

section
variable {env : LSEnv α σ ρ} {G' : α → σ → Res ρ × σ} (h : ∀ t s, (env.G t s).1 = .ub ∨ env.G t s = G' t s)
include h

omit [Arith α] in
theorem evalG_below (t : α) (st : LSState α σ) : Below (evalG env t st) (evalG { env with G := G' } t st) := by
  simp only [evalG]
  rcases h t st.s with h | h
  · rw [h]; exact .inl ⟨_, rfl⟩
  · rw [h]; exact .refl _

theorem btLoop_below (tau F0 : α) : ∀ (n : Nat) (t : α) (st : LSState α σ),
    Below (btLoop env tau F0 n t st) (btLoop { env with G := G' } tau F0 n t st) := by
  intro n
  induction n with
  | zero => intro t st; exact .refl _
  | succ n ih =>
    intro t st
    rw [btLoop, btLoop]
    split
    · refine (evalG_below h t st).bind fun r st' => ?_
      rw [readF_bind, readF_bind]
      simp only
      split
      · exact .refl _
      · exact ih _ _
    · exact .refl _

theorem btSearch_below (p : LSParams α) (fuel : Nat) (F0 : α) (st : LSState α σ) :
    Below (btSearch env p fuel F0 st) (btSearch { env with G := G' } p fuel F0 st) := by
  rw [btSearch, btSearch]
  split
  · exact .refl _
  · refine (btLoop_below h p.tau F0 fuel p.tTrial st).bind fun q st' => ?_
    cases q with
    | some r => exact .refl _
    | none =>
      simp only
      rw [get_bind, get_bind]
      split
      · exact .refl _
      · rw [setRestart_bind, setRestart_bind]
        exact evalG_below h _ _

theorem qlineLoop_below (F0 slope : α) : ∀ (n : Nat) (t : α) (st : LSState α σ),
    Below (qlineLoop env F0 slope n t st) (qlineLoop { env with G := G' } F0 slope n t st) := by
  intro n
  induction n with
  | zero => intro t st; exact .refl _
  | succ n ih =>
    intro t st
    rw [qlineLoop, qlineLoop]
    refine (evalG_below h t st).bind fun r st' => ?_
    rw [readF_bind, readF_bind]
    simp only
    split
    · exact ih _ _
    · exact .refl _

theorem qline_below (p : LSParams α) (fuel : Nat) (slope : α) (st : LSState α σ) :
    Below (qline env p fuel slope st) (qline { env with G := G' } p fuel slope st) := by
  rw [qline, qline, readF_bind, readF_bind]
  exact (qlineLoop_below h _ _ _ _ st).bind fun tm st' => (evalG_below h _ _).bind fun r st2 => .refl _

theorem lineSearch_below (p : LSParams α) (fuel : Nat) (slope : α) (st : LSState α σ) :
    Below (lineSearch env p fuel slope st) (lineSearch { env with G := G' } p fuel slope st) := by
  rw [lineSearch, lineSearch]
  split
  · exact .refl _
  · rw [readF_bind, readF_bind]
    refine (qline_below h p fuel slope st).attempt.bind fun r st' => ?_
    rcases r with e | r
    · cases e with
      | stepError => exact btSearch_below h p fuel _ _
      | _ => exact .refl _
    · exact .refl _

end

variable {ops : Ops α σ ρ δ} {geo' : ρ → δ → α → σ → Res ρ × σ}
  (h : ∀ p d t s, (ops.geo p d t s).1 = .ub ∨ ops.geo p d t s = geo' p d t s)
include h

theorem runSearch_below (prm : NlcgParams α) (fuel i : Nat) (v : Vars α ρ δ) (w : NState α σ) :
    Below (runSearch ops prm fuel i v w) (runSearch { ops with geo := geo' } prm fuel i v w) := by
  have := lineSearch_below (env := { G := ops.geo v.pt v.dir, getF := ops.getF }) (G' := geo' v.pt v.dir)
    (fun t s => h v.pt v.dir t s) { tTrial := lit (2 / 10), tau := prm.tau } fuel
    v.slope { s := w.s, forceRestart := w.force, evals := [] }
  simp only [runSearch]
  rcases this with ⟨s, hs⟩ | hs
  · rw [hs]; exact .inl ⟨_, rfl⟩
  · rw [hs]; exact .refl _

theorem cgBody_below (prm : NlcgParams α) (fuel rank i : Nat) (v : Vars α ρ δ) (w : NState α σ) :
    Below (cgBody ops prm fuel rank i v w) (cgBody { ops with geo := geo' } prm fuel rank i v w) := by
  rw [cgBody, cgBody]
  refine (Below.refl _).bind fun _ _ => (Below.refl _).bind fun _ _ => (Below.refl _).bind fun _ _ => ?_
  exact (runSearch_below h prm fuel i v _).bind fun _ _ => .refl _

theorem cgLoop_below (prm : NlcgParams α) (fuel rank : Nat) : ∀ (n i : Nat) (v : Vars α ρ δ) (w : NState α σ),
    Below (cgLoop ops prm fuel rank n i v w) (cgLoop { ops with geo := geo' } prm fuel rank n i v w) := by
  intro n
  induction n with
  | zero => intros; exact .refl _
  | succ n ih =>
    intro i v w
    rw [cgLoop, cgLoop]
    refine (Below.refl _).bind fun u w1 => ?_
    split
    · exact .refl _
    · refine (cgBody_below h prm fuel rank i v w1).attempt.bind fun r w2 => ?_
      rcases r with e | v'
      · cases e <;> exact .refl _
      · exact ih _ _ _

/-- a run with undefined steps is undefined, or the run without -/
theorem nlcg_below (prm : NlcgParams α) (fuel rank : Nat) (w : NState α σ) :
    Below (nlcg ops prm fuel rank w) (nlcg { ops with geo := geo' } prm fuel rank w) := by
  rw [nlcg, nlcg]
  refine (Below.refl _).bind fun _ _ => (Below.refl _).bind fun _ _ => (Below.refl _).bind fun _ _ => ?_
  refine (Below.refl _).bind fun _ _ => (Below.refl _).bind fun _ _ => (Below.refl _).bind fun _ _ => ?_
  exact cgLoop_below h prm fuel rank _ _ _ _

end Nlcg
