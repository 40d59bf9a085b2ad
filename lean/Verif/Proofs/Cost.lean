import Verif.Proofs.DriverTotal
import Verif.Proofs.LineSearchReal
import Verif.Proofs.Simulation
import Verif.Spec.Cost

/-! Number of evaluations of searches and runs. -/

namespace Nlcg
open Arith Spec
variable {α σ ρ δ : Type} [Arith α]

/-! ## Invariants of programs -/

/-- `m` keeps `P`, however it ends -/
def FM.Keeps {τ β : Type} (P : τ → Prop) (m : FM τ β) : Prop := ∀ s o s', P s → m s = some (o, s') → P s'

section
variable {τ β γ : Type} {P : τ → Prop}

theorem FM.Keeps.pure (b : β) : FM.Keeps P (Pure.pure b : FM τ β) := by
  intro s o s' h he
  simp only [FM.pure_apply, Option.some.injEq, Prod.mk.injEq] at he
  exact he.2 ▸ h

theorem FM.Keeps.throw (e : Exc) : FM.Keeps P (FM.throw e : FM τ β) := by
  intro s o s' h he
  simp only [FM.throw_apply, Option.some.injEq, Prod.mk.injEq] at he
  exact he.2 ▸ h

theorem FM.Keeps.stuck : FM.Keeps P (FM.stuck : FM τ β) := by
  intro s o s' h he
  simp at he

theorem FM.Keeps.get : FM.Keeps P (FM.get : FM τ τ) := by
  intro s o s' h he
  simp only [FM.get_apply, Option.some.injEq, Prod.mk.injEq] at he
  exact he.2 ▸ h

theorem FM.Keeps.bind {m : FM τ β} {f : β → FM τ γ} (h1 : FM.Keeps P m) (h2 : ∀ b, FM.Keeps P (f b)) :
    FM.Keeps P (m >>= f) := by
  intro s o s' h he
  rcases FM.bind_inv he with ⟨b, s1, e1, e2⟩ | ⟨e, e1, -⟩ | ⟨e1, -⟩ | ⟨e1, -⟩
  · exact h2 b _ _ _ (h1 _ _ _ h e1) e2
  all_goals exact h1 _ _ _ h e1

theorem FM.Keeps.attempt {m : FM τ β} (h1 : FM.Keeps P m) : FM.Keeps P (FM.attempt m) := by
  intro s o s' h he
  rw [FM.attempt] at he
  cases hm : m s with
  | none => rw [hm] at he; simp at he
  | some q =>
    obtain ⟨r, s1⟩ := q
    rw [hm] at he
    have := h1 _ _ _ h hm
    cases r <;> simp only [Option.some.injEq, Prod.mk.injEq] at he <;> exact he.2 ▸ this

theorem FM.Keeps.ite {c : Prop} [Decidable c] {m m' : FM τ β} (h1 : FM.Keeps P m) (h2 : FM.Keeps P m') :
    FM.Keeps P (if c then m else m') := by
  split
  · exact h1
  · exact h2
end

/-! ## One search -/

/-- the number of evaluations counted by the backend is the number of steps evaluated -/
def InStep (c : σ → ℕ) (d : ℕ) (st : LSState α σ) : Prop := c st.s = d + st.evals.length

section
variable {env : LSEnv α σ ρ} {c : σ → ℕ} {d : ℕ}

theorem evalG_inStep (hG : ∀ t s, c (env.G t s).2 = c s + 1) (t : α) :
    FM.Keeps (InStep c d) (evalG env t) := by
  intro s o s' h he
  simp only [evalG, Option.some.injEq, Prod.mk.injEq] at he
  rw [← he.2]
  simp only [InStep, hG, List.length_cons] at h ⊢
  omega

theorem readF_inStep : FM.Keeps (InStep c d) (readF env) := by
  intro s o s' h he
  simp only [readF, Option.some.injEq, Prod.mk.injEq] at he
  exact he.2 ▸ h

theorem setRestart_inStep (b : Bool) : FM.Keeps (InStep (α := α) c d) (setRestart b) := by
  intro s o s' h he
  simp only [setRestart, FM.modify_apply, Option.some.injEq, Prod.mk.injEq] at he
  rw [← he.2]
  exact h

theorem btLoop_inStep (hG : ∀ t s, c (env.G t s).2 = c s + 1) (tau F0 : α) :
    ∀ n t, FM.Keeps (InStep c d) (btLoop env tau F0 n t)
  | 0, t => by rw [btLoop]; exact .ite .stuck (.pure _)
  | n + 1, t => by
    rw [btLoop]
    exact .ite (.bind (evalG_inStep hG t) fun _ => .bind readF_inStep fun _ =>
      .ite (.bind (setRestart_inStep _) fun _ => .pure _) (btLoop_inStep hG tau F0 n _)) (.pure _)

theorem qlineLoop_inStep (hG : ∀ t s, c (env.G t s).2 = c s + 1) (F0 slope : α) :
    ∀ n t, FM.Keeps (InStep c d) (qlineLoop env F0 slope n t)
  | 0, t => by rw [qlineLoop]; exact .stuck
  | n + 1, t => by
    rw [qlineLoop]
    exact .bind (evalG_inStep hG t) fun _ => .bind readF_inStep fun _ =>
      .ite (qlineLoop_inStep hG F0 slope n _) (.pure _)

theorem lineSearch_inStep (hG : ∀ t s, c (env.G t s).2 = c s + 1) (p : LSParams α) (fuel : ℕ) (slope : α) :
    FM.Keeps (InStep c d) (lineSearch env p fuel slope) := by
  have hq : FM.Keeps (InStep c d) (qline env p fuel slope) := by
    rw [qline]
    exact .bind readF_inStep fun _ => .bind (qlineLoop_inStep hG _ _ _ _) fun _ => .bind (evalG_inStep hG _) fun _ =>
      .bind readF_inStep fun _ => .ite (.throw _) (.bind (setRestart_inStep _) fun _ => .pure _)
  have hb : ∀ F0, FM.Keeps (InStep c d) (btSearch env p fuel F0) := by
    intro F0
    rw [btSearch]
    refine .ite (.throw _) (.bind (btLoop_inStep hG _ _ _ _) fun r => ?_)
    cases r with
    | some r => exact .pure _
    | none => exact .bind .get fun _ => .ite (.throw _) (.bind (setRestart_inStep _) fun _ => evalG_inStep hG _)
  rw [lineSearch]
  refine .ite (.throw _) (.bind readF_inStep fun F0 => .bind (.attempt hq) fun r => ?_)
  rcases r with e | r
  · cases e
    case stepError => exact hb F0
    all_goals exact .throw _
  · exact .pure _
end

theorem geomSteps_length (t tau : α) (k : ℕ) : (geomSteps t tau k).length = k := by
  induction k generalizing t with
  | zero => rfl
  | succ k ih => simp [geomSteps, ih]

theorem nthStep_mem (t tau : α) (k j : ℕ) (h : j < k) : nthStep t tau j ∈ geomSteps t tau k := by
  induction k generalizing t j with
  | zero => omega
  | succ k ih =>
    cases j with
    | zero => simp [geomSteps, nthStep]
    | succ j => simp only [geomSteps, nthStep, List.mem_cons]; exact Or.inr (ih _ _ (by omega))

theorem qlineLoop_evals (env : LSEnv α σ ρ) (F0 slope : α) :
    ∀ (n : ℕ) (t : α) (q : ℕ) (st st' : LSState α σ) (o : Res α),
      (∀ t' s0 r s, env.G t' s0 = (.ok r, s) →
        (qCurv F0 slope (env.getF s) (nthStep t (lit 5) q) <ᶠ lit 0) = false) →
      qlineLoop env F0 slope n t st = some (o, st') → st'.evals.length ≤ st.evals.length + (q + 1) := by
  intro n
  induction n with
  | zero => intro t q st st' o _ h; simp [qlineLoop] at h
  | succ n ih =>
    intro t q st st' o hq h
    rw [qlineLoop] at h
    rcases evalG_bind h with ⟨r, st1, he, h2⟩ | ⟨st1, e, he, h2⟩ | ⟨st1, he, h2⟩ | ⟨st1, he, h2⟩
    · obtain ⟨hG, hev, hfr⟩ := evalG_ok he
      rw [readF_bind] at h2
      split at h2
      case isTrue hlt =>
        cases q with
        | zero => rw [show nthStep t (lit 5) 0 = t from rfl] at hq; rw [hq _ _ _ _ hG] at hlt; simp at hlt
        | succ q =>
          have := ih _ q _ _ _ hq h2
          rw [hev, List.length_cons] at this
          omega
      case isFalse hlt =>
        simp only [FM.pure_apply, Option.some.injEq, Prod.mk.injEq] at h2
        obtain ⟨rfl, rfl⟩ := h2
        rw [hev, List.length_cons]; omega
    all_goals
      obtain ⟨hG, hev, hfr⟩ := evalG_ok he
      simp only [Option.some.injEq, Prod.mk.injEq] at h2
      obtain ⟨rfl, rfl⟩ := h2
      rw [hev, List.length_cons]; omega

theorem qline_evals (env : LSEnv α σ ρ) (p : LSParams α) (fuel : ℕ) (slope : α) (q : ℕ) (st st' : LSState α σ)
    (o : Res ρ) (hq : ∀ t' s0 r s, env.G t' s0 = (.ok r, s) →
        (qCurv (env.getF st.s) slope (env.getF s) (nthStep p.tTrial (lit 5) q) <ᶠ lit 0) = false)
    (h : qline env p fuel slope st = some (o, st')) : st'.evals.length ≤ st.evals.length + (q + 2) := by
  rw [qline, readF_bind] at h
  rcases FM.bind_inv h with ⟨tm, st1, h1, h2⟩ | ⟨e, h1, -⟩ | ⟨h1, -⟩ | ⟨h1, -⟩
  · have a := qlineLoop_evals env _ slope fuel _ q _ _ _ hq h1
    rcases evalG_bind h2 with ⟨r, st2, he, h3⟩ | ⟨st2, e, he, h3⟩ | ⟨st2, he, h3⟩ | ⟨st2, he, h3⟩
    · obtain ⟨-, hev, -⟩ := evalG_ok he
      have hl : st2.evals.length = st1.evals.length + 1 := by rw [hev]; rfl
      rw [readF_bind] at h3
      split at h3
      · simp only [FM.throw_apply, Option.some.injEq, Prod.mk.injEq] at h3
        rw [← h3.2]; omega
      · rw [setRestart_bind] at h3
        simp only [FM.pure_apply, Option.some.injEq, Prod.mk.injEq] at h3
        rw [← h3.2]; simp only; omega
    all_goals
      obtain ⟨-, hev, -⟩ := evalG_ok he
      have hl : st2.evals.length = st1.evals.length + 1 := by rw [hev]; rfl
      simp only [Option.some.injEq, Prod.mk.injEq] at h3
      obtain ⟨-, rfl⟩ := h3
      omega
  all_goals
    have a := qlineLoop_evals env _ slope fuel _ q _ _ _ hq h1
    omega

/-- evaluations of a whole search -/
theorem lineSearch_evals (env : LSEnv α σ ρ) (p : LSParams α) (fuel : ℕ) (slope : α) (q b : ℕ)
    (st st' : LSState α σ) (o : Res ρ)
    (hq : (lit 0 <ᶠ slope) = false → ∀ t' s0 r s, env.G t' s0 = (.ok r, s) →
        (qCurv (env.getF st.s) slope (env.getF s) (nthStep p.tTrial (lit 5) q) <ᶠ lit 0) = false)
    (hb : (lit 1 ≤ᶠ p.tau) = false → (lit (1 / 10 ^ 8) <ᶠ nthStep p.tTrial p.tau b) = false)
    (h : lineSearch env p fuel slope st = some (o, st')) :
    st'.evals.length ≤ st.evals.length + (q + b + 3) := by
  rcases lineSearch_inv _ _ _ _ _ _ _ h with ⟨_, -, rfl⟩ | ⟨hs, ⟨h1, _⟩ | ⟨stm, h1, h2⟩⟩
  · omega
  · have := qline_evals env p fuel slope q _ _ _ (hq hs) h1
    omega
  · have a := qline_evals env p fuel slope q _ _ _ (hq hs) h1
    rcases btSearch_spec _ _ _ _ _ _ _ h2 with ⟨_, -, rfl⟩ | ⟨ht, k, stn, hk, hk2, hc⟩
    · omega
    · have hkb : k ≤ b := by
        by_contra hlt
        have := hk2 _ (nthStep_mem p.tTrial p.tau k b (by omega))
        rw [hb ht] at this; simp at this
      have hl : stn.evals.length = k + stm.evals.length := by
        rw [hk, List.length_append, List.length_reverse, geomSteps_length]
      rcases hc with ⟨r', hr, rfl, -⟩ | ⟨-, h4, ⟨-, -, rfl⟩ | ⟨h5, h6⟩⟩ | ⟨rfl, -⟩
      · omega
      · omega
      · have g2 : st'.evals.length = stn.evals.length + 1 := by
          simp only [evalG, Option.some.injEq, Prod.mk.injEq] at h6
          rw [← h6.2]; rfl
        omega
      · omega

/-! ## A run -/

theorem counted_reproducible {ops : Ops α σ ρ δ} {E : ρ → α} (h : ops.Reproducible E) :
    (counted ops).Reproducible E where
  setup s r s' e := by
    simp only [counted, uncounted, Prod.mk.injEq] at e ⊢
    rw [← e.2]
    exact h.setup s.1 r _ (by rw [← e.1])
  geo pt dir t s r s' e := by
    simp only [counted, Prod.mk.injEq] at e ⊢
    rw [← e.2]
    exact h.geo pt dir t s.1 r _ (by rw [← e.1])
  zero pt dir s r s' e := by
    simp only [counted, Prod.mk.injEq] at e
    exact h.zero pt dir s.1 r (ops.geo pt dir (lit 0) s.1).2 (by rw [← e.1])
  refresh r s pt s' e := by
    simp only [counted, uncounted, Prod.mk.injEq] at e ⊢
    rw [← e.2]
    exact h.refresh r s.1 pt _ (by rw [← e.1])
  restarted pt s := h.restarted pt s.1
  conjugated fr pt dir s := h.conjugated fr pt dir s.1
  gather pt s := h.gather pt s.1
  hostPrint s := h.hostPrint s.1

theorem JsonRun.count {ops : Ops α σ ρ δ} {rank i : ℕ} {slope : α} {pt : ρ} {w : NState α (σ × ℕ)} {o : Res Unit}
    {s' : σ × ℕ} {file' : List (JsonRec α)} (h : JsonRun (counted ops) rank i slope pt w o s' file') :
    s'.2 = w.s.2 := by
  obtain ⟨h1, -⟩ := h
  split at h1
  · simp only [counted, uncounted, Prod.mk.injEq] at h1
    rw [h1.2]
  · cases h1; rfl

theorem DirRun.count {ops : Ops α σ ρ δ} {prm : NlcgParams α} {i : ℕ} {v : Vars α ρ δ} {r : ρ}
    {st : LSState α (σ × ℕ)} {o : Res (Vars α ρ δ)} {dirs : List (Ev α)} {s' : σ × ℕ} {force' : Bool}
    (h : DirRun (counted ops) prm i v r st o dirs s' force') : s'.2 = st.s.2 := by
  have e1 : ∀ {r : ρ} {s s' : σ × ℕ} {o}, (counted ops).refresh r s = (o, s') → s'.2 = s.2 := by
    intro r s s' o h; simp only [counted, uncounted, Prod.mk.injEq] at h; rw [← h.2]
  have e2 : ∀ {r : ρ} {s s' : σ × ℕ} {o}, (counted ops).restarted r s = (o, s') → s'.2 = s.2 := by
    intro r s s' o h; simp only [counted, uncounted, Prod.mk.injEq] at h; rw [← h.2]
  have e3 : ∀ {fr : α} {r : ρ} {d : δ} {s s' : σ × ℕ} {o}, (counted ops).conjugated fr r d s = (o, s') → s'.2 = s.2 := by
    intro fr r d s s' o h; simp only [counted, uncounted, Prod.mk.injEq] at h; rw [← h.2]
  cases h with
  | refresh o s4 g1 g2 => exact e1 g1
  | ub pt s4 g1 => exact e1 g1
  | steepestFail pt s4 o s5 g1 g2 g3 g4 => exact (e2 g4).trans (e1 g1)
  | steepest pt s4 sl dir s5 g1 g2 g3 g4 => exact (e2 g4).trans (e1 g1)
  | conjugateFail pt s4 o s5 g1 g2 g3 g4 g5 => exact (e3 g5).trans (e1 g1)
  | conjugate pt s4 fr sl dir s5 g1 g2 g3 g4 g5 g6 => exact (e3 g5).trans (e1 g1)
  | rejectedFail pt s4 fr c dir s5 o s6 g1 g2 g3 g4 g5 g6 g7 => exact (e2 g7).trans ((e3 g5).trans (e1 g1))
  | rejected pt s4 fr c dir s5 sl dir6 s6 g1 g2 g3 g4 g5 g6 g7 => exact (e2 g7).trans ((e3 g5).trans (e1 g1))

section
variable {ops : Ops ℝ σ ρ δ} {E : ρ → ℝ} {prm : NlcgParams ℝ} {fuel rank : ℕ} {L U : ℝ} {q b : ℕ}

theorem BodyRun.count (hE : ops.Reproducible E) (hL : ∀ r, L ≤ E r) (htol : 0 < prm.tol)
    (hq : U - L ≤ prm.tol * (2 / 10 * 5 ^ q)) (hb : prm.tau < 1 → 2 / 10 * prm.tau ^ b ≤ 1 / 10 ^ 8)
    {i : ℕ} {v : Vars ℝ ρ δ} {w w' : NState ℝ (σ × ℕ)} {o : Res (Vars ℝ ρ δ)}
    (h : BodyRun (counted ops) prm fuel rank i v w o w') (hU : ops.getF w.s.1 ≤ U)
    (ht : (Arith.abs v.slope <ᶠ prm.tol) = false) : w'.s.2 ≤ w.s.2 + (q + b + 3) := by
  have hp : ∀ {s s' : σ × ℕ} {o}, (counted ops).hostPrint s = (o, s') → s'.2 = s.2 := by
    intro s s' o h; simp only [counted, uncounted, Prod.mk.injEq] at h; rw [← h.2]
  have search : ∀ {s1 s2 : σ × ℕ} {file'} {st : LSState ℝ (σ × ℕ)} {o : Res ρ},
      JsonRun (counted ops) rank i v.slope v.pt w (.ok ()) s1 file' → (counted ops).hostPrint s1 = (.ok (), s2) →
      lineSearch { G := (counted ops).geo v.pt v.dir, getF := (counted ops).getF }
        { tTrial := lit (2 / 10), tau := prm.tau } fuel v.slope
        { s := s2, forceRestart := w.force, evals := [] } = some (o, st) →
      st.s.2 ≤ w.s.2 + (q + b + 3) := by
    intro s1 s2 file' st o g1 g2 g3
    have a := lineSearch_inStep (c := fun s : σ × ℕ => s.2) (d := s2.2)
      (env := { G := (counted ops).geo v.pt v.dir, getF := (counted ops).getF })
      (fun t s => rfl) { tTrial := lit (2 / 10), tau := prm.tau } fuel v.slope _ _ _ (by simp [InStep]) g3
    have hF : ops.getF s2.1 ≤ U := by
      have x := (counted_reproducible hE).hostPrint s1
      rw [g2] at x
      have y := g1.getF (counted_reproducible hE)
      exact (x.trans y).le.trans hU
    have c := lineSearch_evals _ _ fuel v.slope q b _ _ _ ?_ ?_ g3
    · simp only [InStep, List.length_nil] at a c
      have := hp g2
      have := g1.count
      omega
    · intro hs t' s0 r s hG
      simp only [real_lt, real_lit, decide_eq_false_iff_not, not_lt, Rat.cast_zero] at hs
      have hsl : v.slope ≤ -prm.tol := by
        simp only [real_abs, real_lt, decide_eq_false_iff_not, not_lt] at ht
        rw [abs_of_nonpos hs] at ht
        linarith
      have h5 : nthStep (lit (2 / 10) : ℝ) (lit 5) q = 2 / 10 * 5 ^ q := by rw [nthStep_real]; simp
      simp only [h5]
      simp only [qCurv, real_lt, real_div, real_sub, real_mul, real_lit, decide_eq_false_iff_not, not_lt]
      push_cast
      apply div_nonneg
      · have := hL r
        rw [← (counted_reproducible hE).geo _ _ _ _ _ _ hG] at this
        have hF' : (counted ops).getF s2 ≤ U := hF
        have h6 : (0 : ℝ) < 5 ^ q := by positivity
        nlinarith
      · positivity
    · intro h1
      simp only [real_le, real_lit, decide_eq_false_iff_not, not_le, Rat.cast_one] at h1
      rw [nthStep_real]
      simp only [real_lt, real_lit, decide_eq_false_iff_not, not_lt]
      push_cast
      simpa using hb h1
  cases h with
  | json o s1 file' g1 g2 => have := g1.count; simp only; omega
  | hostPrint s1 s2 file' o g1 g2 g3 =>
    have := g1.count; have := hp g2; simp only [searchStart]; omega
  | search s1 s2 file' o st tr g1 g2 g3 g4 g5 g6 => exact search g1 g2 g3
  | searched s1 s2 file' r st _ dirs s' force' g1 g2 g3 g4 =>
    show s'.2 ≤ _
    rw [g4.count]
    exact search g1 g2 g3

theorem LoopRun.count (hE : ops.Reproducible E) (hL : ∀ r, L ≤ E r) (htol : 0 < prm.tol)
    (hq : U - L ≤ prm.tol * (2 / 10 * 5 ^ q)) (hb : prm.tau < 1 → 2 / 10 * prm.tau ^ b ≤ 1 / 10 ^ 8)
    {n i : ℕ} {v : Vars ℝ ρ δ} {w w' : NState ℝ (σ × ℕ)} {o : Res (Info ℝ)}
    (h : LoopRun (counted ops) prm fuel rank n i v w o w') (h0 : ops.getF w.s.1 = E v.pt)
    (hU : ops.getF w.s.1 ≤ U) : w'.s.2 ≤ w.s.2 + n * (q + b + 3) := by
  have hp : ∀ {s s' : σ × ℕ} {o}, (counted ops).hostPrint s = (o, s') → s'.2 = s.2 := by
    intro s s' o h; simp only [counted, uncounted, Prod.mk.injEq] at h; rw [← h.2]
  induction h with
  | limit => omega
  | success n i v w s1 s2 file' h1 h2 h3 => have := h2.count; have := hp h3; simp only; omega
  | successJson n i v w o s1 file' h1 h2 h3 => have := h2.count; simp only; omega
  | successPrint n i v w s1 file' o s2 h1 h2 h3 h4 => have := h2.count; have := hp h3; simp only; omega
  | step n i v w v' w1 o w' h1 h2 h3 ih =>
    obtain ⟨e1, e2⟩ := h2.energy (counted_reproducible hE) (w := started i v.slope w) h0
    have e3 : ops.getF w1.s.1 ≤ ops.getF w.s.1 := e2
    have a := ih e1 (e3.trans hU)
    have c : w1.s.2 ≤ w.s.2 + (q + b + 3) := h2.count hE hL htol hq hb hU h1
    rw [Nat.succ_mul]
    omega
  | caught n i v w e w1 h1 h2 h3 =>
    have c : w1.s.2 ≤ w.s.2 + (q + b + 3) := h2.count hE hL htol hq hb hU h1
    rw [Nat.succ_mul]
    omega
  | uncaught n i v w o w1 h1 h2 h3 h4 =>
    have c : w1.s.2 ≤ w.s.2 + (q + b + 3) := h2.count hE hL htol hq hb hU h1
    rw [Nat.succ_mul]
    omega
end

end Nlcg
