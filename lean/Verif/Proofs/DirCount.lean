import Verif.Proofs.OpSim
import Verif.Proofs.Cost

/-! How many search directions a run computes. -/

namespace Nlcg
open Arith Matrix Spec

/-! ## A quantity that only search directions increase -/

section driver
variable {α σ ρ δ : Type} [Arith α]

/-- Only the computation of a direction increases `μ`, and by at most `c`. -/
structure OnlyDirections (ops : Ops α σ ρ δ) (μ : σ → ℕ) (c : ℕ) : Prop where
  construct : ∀ s, μ (ops.construct s).2 ≤ μ s
  setup : ∀ s, μ (ops.setup s).2 ≤ μ s
  restarted : ∀ pt s, μ (ops.restarted pt s).2 ≤ μ s + c
  conjugated : ∀ fr pt dir s, μ (ops.conjugated fr pt dir s).2 ≤ μ s + c
  geo : ∀ pt dir t s, μ (ops.geo pt dir t s).2 ≤ μ s
  refresh : ∀ r s, μ (ops.refresh r s).2 ≤ μ s
  gather : ∀ pt s, μ (ops.gather pt s).2 ≤ μ s
  hostPrint : ∀ s, μ (ops.hostPrint s).2 ≤ μ s

variable {ops : Ops α σ ρ δ} {μ : σ → ℕ} {c : ℕ} {prm : NlcgParams α} {fuel rank : ℕ}

theorem OnlyDirections.json (h : OnlyDirections ops μ c) {i : ℕ} {slope : α} {pt : ρ} {w : NState α σ} {o : Res Unit}
    {s' : σ} {file' : List (JsonRec α)} (hj : JsonRun ops rank i slope pt w o s' file') : μ s' ≤ μ w.s := by
  obtain ⟨h1, -⟩ := hj
  split at h1
  · have := h.gather pt w.s
    rwa [← h1] at this
  · cases h1; exact le_rfl

theorem OnlyDirections.search (h : OnlyDirections ops μ c) {pt : ρ} {dir : δ} {p : LSParams α} {slope : α}
    {st st' : LSState α σ} {o : Res ρ}
    (hl : lineSearch { G := ops.geo pt dir, getF := ops.getF } p fuel slope st = some (o, st')) : μ st'.s ≤ μ st.s :=
  (wp_lineSearch (I := fun s => μ s ≤ μ st.s) (E := fun s => μ s ≤ μ st.s) (P := fun _ _ => True) (fun _ h => h)
    (fun t s hs => ⟨(h.geo pt dir t s).trans hs, fun _ => (h.geo pt dir t s).trans hs, fun _ _ => trivial⟩) p fuel slope st
    le_rfl _ _ hl).any

theorem OnlyDirections.dir (h : OnlyDirections ops μ c) {i : ℕ} {v : Vars α ρ δ} {r : ρ} {st : LSState α σ}
    {o : Res (Vars α ρ δ)} {dirs : List (Ev α)} {s' : σ} {force' : Bool}
    (hd : DirRun ops prm i v r st o dirs s' force') : μ s' ≤ μ st.s + 2 * c := by
  have e1 : ∀ {r : ρ} {s s' : σ} {o}, ops.refresh r s = (o, s') → μ s' ≤ μ s := by
    intro r s s' o e; have := h.refresh r s; rwa [e] at this
  have e2 : ∀ {r : ρ} {s s' : σ} {o}, ops.restarted r s = (o, s') → μ s' ≤ μ s + c := by
    intro r s s' o e; have := h.restarted r s; rwa [e] at this
  have e3 : ∀ {fr : α} {r : ρ} {d : δ} {s s' : σ} {o}, ops.conjugated fr r d s = (o, s') → μ s' ≤ μ s + c := by
    intro fr r d s s' o e; have := h.conjugated fr r d s; rwa [e] at this
  cases hd with
  | refresh o s4 g1 g2 => have := e1 g1; omega
  | ub pt s4 g1 => have := e1 g1; omega
  | steepestFail pt s4 o s5 g1 g2 g3 g4 => have := e1 g1; have := e2 g4; omega
  | steepest pt s4 sl dir s5 g1 g2 g3 g4 => have := e1 g1; have := e2 g4; omega
  | conjugateFail pt s4 o s5 g1 g2 g3 g4 g5 => have := e1 g1; have := e3 g5; omega
  | conjugate pt s4 fr sl dir s5 g1 g2 g3 g4 g5 g6 => have := e1 g1; have := e3 g5; omega
  | rejectedFail pt s4 fr c dir s5 o s6 g1 g2 g3 g4 g5 g6 g7 =>
    have := e1 g1; have := e3 g5; have := e2 g7; omega
  | rejected pt s4 fr c dir s5 sl dir6 s6 g1 g2 g3 g4 g5 g6 g7 =>
    have := e1 g1; have := e3 g5; have := e2 g7; omega

theorem OnlyDirections.body (h : OnlyDirections ops μ c) {i : ℕ} {v : Vars α ρ δ} {w w' : NState α σ}
    {o : Res (Vars α ρ δ)} (hb : BodyRun ops prm fuel rank i v w o w') : μ w'.s ≤ μ w.s + 2 * c := by
  have e1 : ∀ {s s' : σ} {o}, ops.hostPrint s = (o, s') → μ s' ≤ μ s := by
    intro s s' o e; have := h.hostPrint s; rwa [e] at this
  cases hb with
  | json o s1 file' g1 g2 => have := h.json g1; simp only; omega
  | hostPrint s1 s2 file' o g1 g2 g3 =>
    have := h.json g1; have := e1 g2
    show μ s2 ≤ _
    omega
  | search s1 s2 file' o st tr g1 g2 g3 g4 =>
    have := h.json g1; have := e1 g2; have := h.search g3
    simp only at *
    omega
  | searched s1 s2 file' r st o dirs s' force' g1 g2 g3 g4 =>
    have := h.json g1; have := e1 g2; have := h.search g3; have := h.dir g4
    simp only at *
    omega

theorem OnlyDirections.loop (h : OnlyDirections ops μ c) {n i : ℕ} {v : Vars α ρ δ} {w w' : NState α σ}
    {o : Res (Info α)} (hl : LoopRun ops prm fuel rank n i v w o w') : μ w'.s ≤ μ w.s + 2 * c * n := by
  have e1 : ∀ {s s' : σ} {o}, ops.hostPrint s = (o, s') → μ s' ≤ μ s := by
    intro s s' o e; have := h.hostPrint s; rwa [e] at this
  induction hl with
  | limit => exact Nat.le_add_right _ _
  | success n i v w s1 s2 file' _ g1 g2 => have := h.json g1; have := e1 g2; simp only; omega
  | successJson n i v w o s1 file' _ g1 => have := h.json g1; simp only; omega
  | successPrint n i v w s1 file' o s2 _ g1 g2 => have := h.json g1; have := e1 g2; simp only; omega
  | step n i v w v' w1 o w' _ g1 _ ih =>
    have a := h.body g1
    have : μ w1.s ≤ μ w.s + 2 * c := a
    rw [Nat.mul_succ]
    omega
  | caught n i v w e w1 _ g1 _ =>
    have a := h.body g1
    have : μ w1.s ≤ μ w.s + 2 * c := a
    rw [Nat.mul_succ]
    omega
  | uncaught n i v w o w1 _ g1 _ _ =>
    have a := h.body g1
    have : μ w1.s ≤ μ w.s + 2 * c := a
    rw [Nat.mul_succ]
    omega

theorem OnlyDirections.run (h : OnlyDirections ops μ c) {w w' : NState α σ} {o : Res (Info α)}
    (hr : nlcg ops prm fuel rank w = some (o, w')) : μ w'.s ≤ μ w.s + c * (1 + 2 * prm.maxiter.toNat) := by
  have e1 : ∀ {s s' : σ} {o}, ops.construct s = (o, s') → μ s' ≤ μ s := by
    intro s s' o e; have := h.construct s; rwa [e] at this
  have e2 : ∀ {s s' : σ} {o}, ops.setup s = (o, s') → μ s' ≤ μ s := by
    intro s s' o e; have := h.setup s; rwa [e] at this
  have e3 : ∀ {r : ρ} {s s' : σ} {o}, ops.restarted r s = (o, s') → μ s' ≤ μ s + c := by
    intro r s s' o e; have := h.restarted r s; rwa [e] at this
  have e : c * (1 + 2 * prm.maxiter.toNat) = c + 2 * c * prm.maxiter.toNat := by ring
  rw [e]
  cases nlcg_run ops prm fuel rank w _ _ hr with
  | construct o s1 h1 => have := e1 h1; simp only; omega
  | setup s1 o s2 h1 h2 => have := e1 h1; have := e2 h2; simp only; omega
  | restarted s1 pt s2 o s3 h1 h2 h3 => have := e1 h1; have := e2 h2; have := e3 h3; simp only; omega
  | loop s1 pt s2 slope dir s3 o w' h1 h2 h3 h4 =>
    have := e1 h1; have := e2 h2; have := e3 h3; have := h.loop h4
    simp only at this
    omega

end driver

/-! ## Applications of the preconditioner -/

variable {K : ℕ} {n b : Fin K → ℕ} {η β γ : Type}

/-- `m` applies the preconditioner of k-point `k` at most `c` times -/
def Preconditions (k : Fin K) (c : ℕ) (m : SM (OState η n b) β) : Prop :=
  ∀ o, appliedP k (m o).2.log ≤ appliedP k o.log + c

theorem Preconditions.bind {k : Fin K} {c d : ℕ} {m : SM (OState η n b) β} {f : β → SM (OState η n b) γ}
    (h : Preconditions k c m) (hf : ∀ x, Preconditions k d (f x)) : Preconditions k (c + d) (m >>= f) := by
  intro o
  have h1 := h o
  rw [SM.bind_apply]
  rcases hm : m o with ⟨x | e | _ | _, o1⟩ <;> rw [hm] at h1
  · have := hf x o1
    simp only at h1 this ⊢
    omega
  all_goals simp only at h1 ⊢; omega

theorem preconditions_get (k : Fin K) : Preconditions k 0 (SM.get : SM (OState η n b) _) := fun _ => le_rfl
theorem preconditions_pure (k : Fin K) (x : β) : Preconditions k 0 (pure x : SM (OState η n b) β) := fun _ => le_rfl
theorem preconditions_lift (k : Fin K) (r : Res β) : Preconditions k 0 (SM.lift r : SM (OState η n b) β) :=
  fun _ => le_rfl

theorem thrown_applied (k : Fin K) (e : Entry n b) : appliedP k [thrown e] = appliedP k [e] := by
  cases e <;> rfl

theorem cut_applied (k : Fin K) {l l' : List (Entry n b)} (h : CutOf l l') : appliedP k l ≤ appliedP k l' := by
  rcases h with ⟨m, rfl⟩ | ⟨p, e, ⟨m, rfl⟩, rfl⟩
  · rw [appliedP_append]; omega
  · rw [appliedP_append, appliedP_append, appliedP_append, thrown_applied]; omega

theorem Emits.preconditions {k : Fin K} {c : ℕ} {m : SM (OState η n b) β} {B : β → List (Entry n b) → Prop}
    (h : Emits m B) (hB : ∀ r l, B r l → appliedP k l ≤ c) : Preconditions k c m := by
  intro o
  rcases hm : m o with ⟨r, o'⟩
  rcases hr : r.isOk with _ | _
  · obtain ⟨-, x, l, l', h1, h2, h3⟩ := h.fail o r o' hm hr
    have := hB x l' h1
    have := cut_applied k h2
    rw [h3, appliedP_append]
    omega
  · rcases r with x | e | _ | _
    · obtain ⟨l, h1, h2⟩ := h.ok o x o' hm
      have := hB x l h1
      rw [h2, appliedP_append]
      omega
    all_goals cases hr

theorem preconditions_hostDo (k : Fin K) (c : HostCall n b) (f : η → Option β × η) : Preconditions k 0 (hostDo c f) := by
  intro o
  rw [hostDo]
  simp [appliedP]

theorem preconditions_applyS (A : Operators η n b) (j k : Fin K) (x : Mat (n j) (b j)) :
    Preconditions k 0 (applyS A j x) :=
  (emits_applyS A j x).preconditions fun r l h => by simp [h, appliedP]

theorem preconditions_forAllM {k : Fin K} : {J : ℕ} → {β : Fin J → Type} → {f : (j : Fin J) → SM (OState η n b) (β j)} →
    (∀ j, Preconditions k 0 (f j)) → Preconditions k 0 (forAllM f)
  | 0, _, _, _ => fun _ => le_rfl
  | J + 1, β, f, h => by
    rw [forAllM]
    exact (h 0).bind fun x => (preconditions_forAllM fun j => h j.succ).bind fun r => preconditions_pure k _

theorem preconditions_evaluateO (host : Host η n b) (c : Cfg n b) (k : Fin K) (X : Orbitals n b) (fn en : Bands b)
    (mu : ℝ) : Preconditions k 0 (evaluateO host c X fn en mu) :=
  (emits_evaluateO host c X fn en mu).preconditions fun r l h => by rw [h, ((told_counts _).2 k).2]

theorem preconditions_geoO (host : Host η n b) (A : Operators η n b) (c : Cfg n b) (k : Fin K) (pt : Point n b)
    (dir : Dir n b) (t : ℝ) : Preconditions k 0 (geoO host A c pt dir t) := by
  refine (preconditions_forAllM fun j => ?_).bind fun g => (preconditions_lift k _).bind fun q =>
    (preconditions_evaluateO host c k _ _ _ _).bind fun _ => preconditions_pure k _
  exact (emits_geoTask A c.la pt dir t j).preconditions fun r l h => by
    obtain ⟨⟨sy, rfl⟩, -⟩ := h
    simp [appliedP]

theorem preconditions_setupO (host : Host η n b) (c : Cfg n b) (k : Fin K) : Preconditions k 0 (setupO host c) :=
  (preconditions_hostDo k _ _).bind fun _ => (preconditions_get k).bind fun _ => (preconditions_lift k _).bind fun _ =>
    (preconditions_get k).bind fun _ => (preconditions_evaluateO host c k _ _ _ _).bind fun _ =>
      (preconditions_get k).bind fun _ => preconditions_pure k _

theorem op_directions (host : Host η n b) (A : Operators η n b) (c : Cfg n b) (k : Fin K) :
    OnlyDirections (opOps host A c) (fun o => appliedP k o.log) 3 where
  construct _ := le_rfl
  setup := preconditions_setupO host c k
  restarted pt := (emits_restartedO host A c pt).preconditions fun r l h => (((direction_counts h).2 k).2).le
  conjugated fr pt dir :=
    (emits_conjugatedO host A c fr pt dir).preconditions fun r l h => (((direction_counts h).2 k).2).le
  geo := preconditions_geoO host A c k
  refresh _ _ := le_rfl
  gather _ _ := le_rfl
  hostPrint := preconditions_hostDo k _ _

end Nlcg
