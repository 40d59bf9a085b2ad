import Verif.Proofs.DriverInv

/-! Runs in which no operation fails. -/

namespace Nlcg
open Arith
variable {α σ ρ δ : Type} [Arith α]

/-- no operation fails -/
structure Ops.Healthy (ops : Ops α σ ρ δ) : Prop where
  construct : ∀ s, (ops.construct s).1.isOk = true
  setup : ∀ s, (ops.setup s).1.isOk = true
  restarted : ∀ pt s, (ops.restarted pt s).1.isOk = true
  conjugated : ∀ fr pt dir s, (ops.conjugated fr pt dir s).1.isOk = true
  geo : ∀ pt dir t s, (ops.geo pt dir t s).1.isOk = true
  refresh : ∀ pt s, (ops.refresh pt s).1.isOk = true
  gather : ∀ pt s, (ops.gather pt s).1.isOk = true
  hostPrint : ∀ s, (ops.hostPrint s).1.isOk = true

theorem lineSearch_healthy {env : LSEnv α σ ρ} (hG : ∀ t s, (env.G t s).1.isOk = true) {p : LSParams α}
    (htau : (lit 1 ≤ᶠ p.tau) = false) {fuel : Nat} {slope : α} {st st' : LSState α σ} {o : Res ρ}
    (h : lineSearch env p fuel slope st = some (o, st')) (ho : o.isOk = false) :
    o = .throw .slopeError ∨ o = .throw .descentError := by
  have hfail : ∀ s, ¬ FailedEval env o s := by
    rintro s ⟨t, s0, ⟨e, -, hg⟩ | ⟨-, hg⟩ | ⟨-, hg⟩⟩ <;>
      (have := hG t s0; rw [hg] at this; simp [Res.isOk] at this)
  rcases lineSearch_inv env p fuel slope st st' _ h with ⟨_, h1, _⟩ | ⟨_, ⟨h1, h0⟩ | ⟨stm, h1, h2⟩⟩
  · exact Or.inl h1
  · rcases (qline_spec env p fuel slope st st' _ h1).2 with ⟨r', hr, -⟩ | ⟨h3, -⟩ | ⟨-, -, h3⟩
    · rw [hr] at ho; simp [Res.isOk] at ho
    · exact absurd h3 h0
    · exact absurd h3 (hfail _)
  · rcases btSearch_spec env p fuel _ stm st' _ h2 with ⟨h3, -⟩ | ⟨_, k, stn, hk, hk2, hc⟩
    · rw [htau] at h3; simp at h3
    · rcases hc with ⟨r', hr, -⟩ | ⟨-, h4, ⟨-, h5, -⟩ | ⟨h5, h6⟩⟩ | ⟨-, -, -, h5⟩
      · rw [hr] at ho; simp [Res.isOk] at ho
      · exact Or.inr h5
      · obtain ⟨g1, -⟩ := evalG_ok h6
        have := hG (lit 0) stn.s
        rw [g1] at this
        simp only at this
        rw [this] at ho
        simp at ho
      · exact absurd h5 (hfail _)

theorem JsonRun.healthy {ops : Ops α σ ρ δ} (hd : ops.Healthy) {rank i : Nat} {slope : α} {pt : ρ}
    {w : NState α σ} {o : Res Unit} {s' : σ} {file' : List (JsonRec α)}
    (h : JsonRun ops rank i slope pt w o s' file') : o.isOk = true := by
  obtain ⟨h1, -⟩ := h
  split at h1
  · have := hd.gather pt w.s; rw [← h1] at this; exact this
  · cases h1; rfl

theorem BodyRun.healthy {ops : Ops α σ ρ δ} (hd : ops.Healthy) {prm : NlcgParams α}
    (hr : prm.restart ≠ 0) (htau : (lit 1 ≤ᶠ prm.tau) = false) {fuel rank i : Nat}
    {v : Vars α ρ δ} {w : NState α σ} {o : Res (Vars α ρ δ)} {w' : NState α σ}
    (h : BodyRun ops prm fuel rank i v w o w') (ho : o.isOk = false) :
    o = .throw .slopeError ∨ o = .throw .descentError := by
  have no : ∀ {β : Type} {r : Res β}, r.isOk = true → r.isOk = false → False := by
    intro β r h1 h2; rw [h1] at h2; simp at h2
  have of {β : Type} {f : σ → Res β × σ} (hf : ∀ s, (f s).1.isOk = true) {s s' : σ} {r : Res β}
      (he : f s = (r, s')) : r.isOk = true := by have := hf s; rw [he] at this; exact this
  cases h with
  | json o s1 file' h1 h2 => exact (no (h1.healthy hd) h2).elim
  | hostPrint s1 s2 file' o h1 h2 h3 => exact (no (of hd.hostPrint h2) h3).elim
  | search s1 s2 file' o st tr h1 h2 h3 h4 h5 h6 =>
    rcases lineSearch_healthy (fun t s => hd.geo v.pt v.dir t s) htau h3 h4 with rfl | rfl
    · exact Or.inl rfl
    · exact Or.inr rfl
  | searched s1 s2 file' r st _ dirs s' force' h1 h2 h3 h4 =>
    cases h4 with
    | refresh o s4 g1 g2 => exact (no (of (hd.refresh r) g1) g2).elim
    | ub pt s4 g1 g2 => exact absurd g2 hr
    | steepestFail pt s4 o s5 g1 g2 g3 g4 g5 => exact (no (of (hd.restarted pt) g4) g5).elim
    | steepest => simp [Res.isOk] at ho
    | conjugateFail pt s4 o s5 g1 g2 g3 g4 g5 g6 =>
      exact (no (of (hd.conjugated v.fr pt v.dir) g5) g6).elim
    | conjugate => simp [Res.isOk] at ho
    | rejectedFail pt s4 fr c dir s5 o s6 g1 g2 g3 g4 g5 g6 g7 g8 =>
      exact (no (of (hd.restarted pt) g7) g8).elim
    | rejected => simp [Res.isOk] at ho

theorem LoopRun.healthy {ops : Ops α σ ρ δ} (hd : ops.Healthy) {prm : NlcgParams α}
    (hr : prm.restart ≠ 0) (htau : (lit 1 ≤ᶠ prm.tau) = false) {fuel rank : Nat} {n i : Nat}
    {v : Vars α ρ δ} {w : NState α σ} {o : Res (Info α)} {w' : NState α σ}
    (h : LoopRun ops prm fuel rank n i v w o w') : o.isOk = true := by
  induction h with
  | limit => rfl
  | success => rfl
  | successJson n i v w o s1 file' h1 h2 h3 =>
    have := h2.healthy hd; rw [h3] at this; simp at this
  | successPrint n i v w s1 file' o s2 h1 h2 h3 h4 =>
    have := hd.hostPrint s1; rw [h3] at this; simp only at this; rw [h4] at this; simp at this
  | step n i v w v' w1 o w' h1 h2 h3 ih => exact ih
  | caught => rfl
  | uncaught n i v w o w1 h1 h2 h3 h4 =>
    rcases h2.healthy hd hr htau h3 with rfl | rfl <;> simp [Res.Clean] at h4

theorem nlcg_healthy {ops : Ops α σ ρ δ} (hd : ops.Healthy) {prm : NlcgParams α}
    (hr : prm.restart ≠ 0) (htau : (lit 1 ≤ᶠ prm.tau) = false) {fuel rank : Nat}
    {w : NState α σ} {o : Res (Info α)} {w' : NState α σ}
    (h : nlcg ops prm fuel rank w = some (o, w')) : ∃ info, o = .ok info := by
  have no : ∀ {β : Type} {r : Res β}, r.isOk = true → r.isOk = false → False := by
    intro β r h1 h2; rw [h1] at h2; simp at h2
  have of {β : Type} {f : σ → Res β × σ} (hf : ∀ s, (f s).1.isOk = true) {s s' : σ} {r : Res β}
      (he : f s = (r, s')) : r.isOk = true := by have := hf s; rw [he] at this; exact this
  cases nlcg_run ops prm fuel rank w o w' h with
  | construct o s1 h1 h2 => exact (no (of hd.construct h1) h2).elim
  | setup s1 o s2 h1 h2 h3 => exact (no (of hd.setup h2) h3).elim
  | restarted s1 pt s2 o s3 h1 h2 h3 h4 => exact (no (of (hd.restarted pt) h3) h4).elim
  | loop s1 pt s2 slope dir s3 o w' h1 h2 h3 h4 =>
    have := h4.healthy hd hr htau
    cases o with
    | ok i => exact ⟨i, rfl⟩
    | _ => simp [Res.isOk] at this

end Nlcg
