import Verif.Proofs.CutShort

/-! A run with a smaller iteration limit beside one with a larger limit. -/

namespace Nlcg
open Arith Spec

variable {α σ ρ δ : Type} [Arith α] {ops : Ops α σ ρ δ} {le : σ → σ → Prop}

/-- the same end; or the first run was ended by the limit after `k` iterations, and the second went on -/
inductive LimitOut (le : σ → σ → Prop) (k : ℕ) :
    Option (Res (Info α) × NState α σ) → Option (Res (Info α) × NState α σ) → Prop
  | same (x) : LimitOut le k x x
  | limit {v y} : (starts v.trace).length = k → (∀ z, y = some z → RunLe le v z.2) →
      LimitOut le k (some (.ok v.info, v)) y

theorem limit_loop (g : GrowOps ops le) (prm : NlcgParams α) (m : ℤ) (fuel rank : ℕ) :
    ∀ (n d i : ℕ) (v : Vars α ρ δ) (w : NState α σ), (starts w.trace).length = i →
    LimitOut le (i + n) (cgLoop ops prm fuel rank n i v w)
      (cgLoop ops { prm with maxiter := m } fuel rank (n + d) i v w)
  | 0, d, i, v, w, hw => by
    rw [cgLoop]
    exact .limit (by rw [hw]; rfl) fun z hz => g.loop _ _ _ _ _ _ w z hz
  | n + 1, d, i, v, w, hw => by
    rw [show n + 1 + d = (n + d) + 1 by omega, cgLoop, cgLoop]
    rw [FM.bind_apply, FM.bind_apply, emit, FM.modify_apply]
    simp only
    split
    · exact .same _
    · rw [FM.bind_apply, FM.bind_apply, FM.attempt, FM.attempt]
      rw [show cgBody ops { prm with maxiter := m } fuel rank i v = cgBody ops prm fuel rank i v from rfl]
      rcases hb : cgBody ops prm fuel rank i v { w with trace := w.trace ++ [.start i v.slope] } with _ | ⟨o, w1⟩
      · exact .same _
      · have hs : (starts w1.trace).length = i + 1 := by
          obtain ⟨oj, s1, -, ht⟩ := (cgBody_run ops prm fuel rank i v _ _ _ hb).file
          rw [ht]
          simp [starts_append, starts, hw]
        cases o with
        | ok v' =>
          have := limit_loop g prm m fuel rank n d (i + 1) v' w1 hs
          rw [show i + 1 + n = i + (n + 1) by omega] at this
          exact this
        | throw e => cases e <;> exact .same _
        | ub => exact .same _
        | abort => exact .same _

theorem limit_run (g : GrowOps ops le) (prm : NlcgParams α) (m m' : ℤ) (hm : m ≤ m') (fuel rank : ℕ)
    (w : NState α σ) :
    LimitOut le m.toNat (nlcg ops { prm with maxiter := m } fuel rank w)
      (nlcg ops { prm with maxiter := m' } fuel rank w) := by
  unfold nlcg
  rw [FM.bind_apply, FM.bind_apply, FM.modify_apply]
  simp only
  rw [FM.bind_apply, FM.bind_apply, liftOp]
  simp only
  cases (ops.construct w.s).1 with
  | throw e => exact .same _
  | ub => exact .same _
  | abort => exact .same _
  | ok _ =>
  simp only
  rw [FM.bind_apply, FM.bind_apply, FM.modify_apply]
  simp only
  rw [FM.bind_apply, FM.bind_apply, liftOp]
  simp only
  cases (ops.setup (ops.construct w.s).2).1 with
  | throw e => exact .same _
  | ub => exact .same _
  | abort => exact .same _
  | ok pt =>
  simp only
  rw [FM.bind_apply, FM.bind_apply, liftOp]
  simp only
  cases (ops.restarted pt (ops.setup (ops.construct w.s).2).2).1 with
  | throw e => exact .same _
  | ub => exact .same _
  | abort => exact .same _
  | ok q =>
  simp only
  rw [FM.bind_apply, FM.bind_apply, FM.modify_apply]
  simp only
  obtain ⟨d, hd⟩ : ∃ d, m'.toNat = m.toNat + d := ⟨m'.toNat - m.toNat, by omega⟩
  rw [hd]
  have := limit_loop g { prm with maxiter := m } m' fuel rank m.toNat d 0
    { pt := pt, dir := q.2, slope := q.1, fr := q.1 }
    { s := (ops.restarted pt (ops.setup (ops.construct w.s).2).2).2, file := [],
      info := { vals := none, converged := false }, force := false, trace := [] } rfl
  rw [Nat.zero_add] at this
  exact this

end Nlcg
