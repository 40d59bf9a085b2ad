import Verif.Proofs.Cost
import Verif.Props.Driver

/-!
# C84: the number of energy evaluations of a run is bounded in advance

`Spec.counted ops` is the backend `ops` with a counter of the trial points evaluated; it changes nothing else
(`C84_counting_changes_nothing`).
-/

namespace Nlcg
open Arith Spec
variable {σ ρ δ : Type}

/-- A counting backend and the plain one correspond. -/
def countSim {α : Type} (ops : Ops α σ ρ δ) : Sim (counted ops) ops where
  W := { R := fun s s' => s.1 = s', le := fun _ _ => True, refl := fun _ => trivial, trans := fun _ _ => trivial }
  P0 _ p p' := p = p'
  P _ p p' := p = p'
  D _ d d' := d = d'
  weaken h := h
  P0_mono _ h := h
  P_mono _ h := h
  D_mono _ h := h
  construct := by rintro s _ rfl; exact ⟨rfl, trivial, relRes_self fun _ => trivial⟩
  setup := by rintro s _ rfl; exact ⟨rfl, trivial, relRes_self fun _ => rfl⟩
  restarted := by rintro s _ p _ rfl rfl; exact ⟨rfl, trivial, relRes_self fun _ => ⟨rfl, rfl⟩⟩
  conjugated := by rintro s _ p _ d _ fr rfl rfl rfl; exact ⟨rfl, trivial, relRes_self fun _ => ⟨rfl, rfl, rfl⟩⟩
  geo := by rintro s _ p _ d _ t rfl rfl rfl; exact ⟨rfl, trivial, relRes_self fun _ => rfl⟩
  refresh := by rintro s _ p _ rfl rfl; exact ⟨rfl, trivial, relRes_self fun _ => rfl⟩
  gather := by rintro s _ p _ rfl rfl; exact ⟨rfl, trivial, relRes_self fun _ => trivial⟩
  hostPrint := by rintro s _ rfl; exact ⟨rfl, trivial, relRes_self fun _ => trivial⟩
  getF := by rintro s _ rfl; rfl
  getS := by rintro s _ rfl; rfl
where
  relRes_self {β : Type} {Q : β → β → Prop} {o : Res β} (h : ∀ a, Q a a) : RelRes Q o o := by
    cases o
    · exact .ok (h _)
    · exact .throw _
    · exact .ub
    · exact .abort

/-- **C84**: the counter is only an observer: the run of the counting backend is the run of the backend. -/
theorem C84_counting_changes_nothing {α : Type} [Arith α] (ops : Ops α σ ρ δ) (prm : NlcgParams α) (fuel rank : ℕ)
    (w : NState α (σ × ℕ)) :
    nlcg ops prm fuel rank (dropCount w) =
      (nlcg (counted ops) prm fuel rank w).map fun r => (r.1, dropCount r.2) := by
  have h := nlcg_rel (countSim ops) prm fuel rank (w := w) (w' := dropCount w) ⟨rfl, rfl, rfl, rfl, rfl⟩
  generalize nlcg (counted ops) prm fuel rank w = a at h
  generalize nlcg ops prm fuel rank (dropCount w) = b at h
  cases h with
  | none => rfl
  | some h =>
    rename_i x y
    obtain ⟨o, w1⟩ := x
    obtain ⟨o', w1'⟩ := y
    obtain ⟨h1, -, h3⟩ := h
    have hw : w1' = dropCount w1 := by
      obtain ⟨a1, a2, a3, a4, a5⟩ := h1
      cases w1'
      simp only at a1 a2 a3 a4 a5
      simp only [dropCount, NState.mk.injEq]
      exact ⟨a1.symm, a2.symm, a3.symm, a4.symm, a5.symm⟩
    have ho : o' = o := by
      simp only at h3
      cases h3 with
      | ok h => rw [h]
      | _ => rfl
    simp [hw, ho]

/-- **C84.** Let the energy be reproducible and at least `L`, `tol > 0`. Choose `q` with
`F_start - L <= tol * 0.2 * 5^q`, and `b` with `0.2 * tau^b <= 1e-8` (any `b`, if `tau >= 1`). However a run ends,
it has evaluated at most `maxiter * (q + b + 3)` trial points. -/
theorem C84_evaluations (ops : Ops ℝ σ ρ δ) (E : ρ → ℝ) (hE : ops.Reproducible E) (L : ℝ) (hL : ∀ r, L ≤ E r)
    (prm : NlcgParams ℝ) (htol : 0 < prm.tol) (q b : ℕ) (w w' : NState ℝ (σ × ℕ))
    (hq : ops.getF (ops.setup (ops.construct w.s.1).2).2 - L ≤ prm.tol * (2 / 10 * 5 ^ q))
    (hb : prm.tau < 1 → 2 / 10 * prm.tau ^ b ≤ 1 / 10 ^ 8) (fuel rank : ℕ) (o : Res (Info ℝ))
    (h : nlcg (counted ops) prm fuel rank w = some (o, w')) :
    w'.s.2 ≤ w.s.2 + prm.maxiter.toNat * (q + b + 3) := by
  have c1 : ∀ {s s' : σ × ℕ} {o}, (counted ops).construct s = (o, s') → s' = ((ops.construct s.1).2, s.2) := by
    intro s s' o h; simp only [counted, uncounted, Prod.mk.injEq] at h; rw [← h.2]
  have c2 : ∀ {s s' : σ × ℕ} {o}, (counted ops).setup s = (o, s') → s' = ((ops.setup s.1).2, s.2) := by
    intro s s' o h; simp only [counted, uncounted, Prod.mk.injEq] at h; rw [← h.2]
  have c3 : ∀ {p : ρ} {s s' : σ × ℕ} {o}, (counted ops).restarted p s = (o, s') → s'.2 = s.2 := by
    intro p s s' o h; simp only [counted, uncounted, Prod.mk.injEq] at h; rw [← h.2]
  cases nlcg_run (counted ops) prm fuel rank w _ _ h with
  | construct o s1 h1 => rw [c1 h1]; simp only; omega
  | setup s1 o s2 h1 h2 => rw [c2 h2, c1 h1]; simp only; omega
  | restarted s1 pt s2 o s3 h1 h2 h3 => have := c3 h3; rw [c2 h2, c1 h1] at this; simp only at this ⊢; omega
  | loop s1 pt s2 slope dir s3 o w' h1 h2 h3 h4 =>
    have a := (counted_reproducible hE).restarted pt s2
    rw [h3] at a
    have hs2 := c2 h2
    have hs1 := c1 h1
    have hF : ops.getF s3.1 = ops.getF (ops.setup (ops.construct w.s.1).2).2 := by
      have : ops.getF s3.1 = ops.getF s2.1 := a
      rw [this, hs2, hs1]
    have := h4.count hE hL htol (U := ops.getF s3.1) (q := q) (b := b) (by rw [hF]; exact hq) hb
      (a.trans ((counted_reproducible hE).setup _ _ _ h2)) le_rfl
    have h5 := c3 h3
    rw [hs2, hs1] at h5
    simp only at this h5
    omega

/-- **C84** with explicit numbers, for `0 < tau < 1` and an energy range `F_start - L <= D`, `tol <= 5 D`: at most
`maxiter * (log_5(5 D / tol) + log(2e7) / log(1 / tau) + 5)` trial points. -/
theorem C84_evaluations_explicit (ops : Ops ℝ σ ρ δ) (E : ρ → ℝ) (hE : ops.Reproducible E) (L D : ℝ)
    (hL : ∀ r, L ≤ E r) (prm : NlcgParams ℝ) (htol : 0 < prm.tol) (htau : 0 < prm.tau) (htau1 : prm.tau < 1)
    (w w' : NState ℝ (σ × ℕ)) (hD : ops.getF (ops.setup (ops.construct w.s.1).2).2 - L ≤ D) (hD' : prm.tol ≤ 5 * D)
    (fuel rank : ℕ) (o : Res (Info ℝ)) (h : nlcg (counted ops) prm fuel rank w = some (o, w')) :
    (w'.s.2 : ℝ) ≤ w.s.2 + prm.maxiter.toNat *
      (Real.log (5 * D / prm.tol) / Real.log 5 + Real.log (2 * 10 ^ 7) / Real.log (1 / prm.tau) + 5) := by
  have hl5 : 0 < Real.log 5 := Real.log_pos (by norm_num)
  have hlt : 0 < Real.log (1 / prm.tau) := Real.log_pos (by rw [lt_div_iff₀ htau]; linarith)
  have hD0 : 0 < D := by linarith
  set x := Real.log (5 * D / prm.tol) / Real.log 5 with hx
  set y := Real.log (2 * 10 ^ 7) / Real.log (1 / prm.tau) with hy
  have hx0 : 0 ≤ x := div_nonneg (Real.log_nonneg (by rw [le_div_iff₀ htol]; linarith)) hl5.le
  have hy0 : 0 ≤ y := div_nonneg (Real.log_nonneg (by norm_num)) hlt.le
  have h1 := C84_evaluations ops E hE L hL prm htol ⌈x⌉₊ ⌈y⌉₊ w w' ?_ ?_ fuel rank o h
  · have h2 : (w'.s.2 : ℝ) ≤ w.s.2 + prm.maxiter.toNat * (⌈x⌉₊ + ⌈y⌉₊ + 3) := by exact_mod_cast h1
    have a := Nat.ceil_lt_add_one hx0
    have b := Nat.ceil_lt_add_one hy0
    have c : (0 : ℝ) ≤ prm.maxiter.toNat := by positivity
    nlinarith
  · have a : x ≤ ⌈x⌉₊ := Nat.le_ceil x
    have b : 5 * D / prm.tol ≤ 5 ^ ⌈x⌉₊ := by
      rw [← Real.log_le_log_iff (by positivity) (by positivity), Real.log_pow]
      rw [hx, div_le_iff₀ hl5] at a
      exact a
    rw [div_le_iff₀ htol] at b
    nlinarith
  · intro _
    have a : y ≤ ⌈y⌉₊ := Nat.le_ceil y
    have b : 2 * 10 ^ 7 ≤ (1 / prm.tau) ^ ⌈y⌉₊ := by
      rw [← Real.log_le_log_iff (by positivity) (by positivity), Real.log_pow]
      rw [hy, div_le_iff₀ hlt] at a
      exact a
    rw [one_div, inv_pow, le_inv_comm₀ (by positivity) (by positivity)] at b
    calc 2 / 10 * prm.tau ^ ⌈y⌉₊ ≤ 2 / 10 * (2 * 10 ^ 7)⁻¹ := by gcongr
      _ = 1 / 10 ^ 8 := by norm_num

theorem decreases_bounded (L ε : ℝ) (hε : 0 < ε) : ∀ (l : List ℝ), l.Pairwise (· ≥ ·) → (∀ x ∈ l, L ≤ x) →
    ∀ a, (∀ x ∈ l, x ≤ a) → L ≤ a →
    (((a :: l).zip l).countP (fun p => decide (ε ≤ p.1 - p.2)) : ℝ) * ε ≤ a - L
  | [], _, _, a, _, h => by simpa using h
  | x :: l, hp, hl, a, ha, h => by
    obtain ⟨h1, h2⟩ := List.pairwise_cons.1 hp
    have ih := decreases_bounded L ε hε l h2 (fun y hy => hl y (List.mem_cons_of_mem _ hy)) x (fun y hy => h1 y hy)
      (hl x List.mem_cons_self)
    have hxa := ha x List.mem_cons_self
    rw [List.zip_cons_cons, List.countP_cons]
    push_cast
    split
    · rename_i hc
      simp only [decide_eq_true_eq] at hc
      linarith
    · linarith

/-- **C84**: few iterations make good progress: at most `(F_0 - L) / ε` of the reported free energies lie by `ε` or
more below the one before. -/
theorem C84_large_decreases (ops : Ops ℝ σ ρ δ) (E : ρ → ℝ) (hE : ops.Reproducible E) (L ε : ℝ) (hε : 0 < ε)
    (prm : NlcgParams ℝ) (fuel rank : ℕ) (w w' : NState ℝ σ) (o : Res (Info ℝ))
    (h : nlcg ops prm fuel rank w = some (o, w')) (F : List ℝ) (F0 : ℝ)
    (hF : (reports w'.trace).map (·.2.1) = F0 :: F) (hL : ∀ x ∈ F0 :: F, L ≤ x) :
    (((F0 :: F).zip F).countP (fun p => decide (ε ≤ p.1 - p.2)) : ℝ) ≤ (F0 - L) / ε := by
  have h1 := (C29_energies_do_not_increase ops E hE prm fuel rank w w' o h).1
  rw [hF] at h1
  obtain ⟨a, b⟩ := List.pairwise_cons.1 h1
  rw [le_div_iff₀ hε]
  exact decreases_bounded L ε hε F b (fun x hx => hL x (List.mem_cons_of_mem _ hx)) F0 (fun x hx => a x hx)
    (hL F0 List.mem_cons_self)

/-! ## Concrete cases -/

/-- the hypotheses of `C84_evaluations`: energy `x^2` from `x = 3`, `tol = 0.01`, `tau = 0.1` -/
example : (toyOps (3 : ℝ)).Reproducible (fun x => x * x) ∧ (∀ x : ℝ, 0 ≤ x * x) ∧
    ∀ s, (toyOps (3 : ℝ)).getF ((toyOps (3 : ℝ)).setup ((toyOps (3 : ℝ)).construct s).2).2 - 0 ≤
      1 / 100 * (2 / 10 * 5 ^ 6) ∧ (2 / 10 * (1 / 10) ^ 8 ≤ (1 : ℝ) / 10 ^ 8) := by
  refine ⟨toy_reproducible 3, fun x => mul_self_nonneg x, fun s => ⟨?_, by norm_num⟩⟩
  simp [toyOps]; norm_num

/-- the counter counts: a run with two evaluations in its only search -/
example : (nlcg (counted (toyOps (1 : ℚ))) { maxiter := 5, tol := 1 / 100, tau := 1 / 10, restart := 2 } 9 0
    { s := (7, 0), file := [], info := { vals := none, converged := false }, force := false, trace := [] }).map
    (fun r => r.2.s.2) = some 2 := by decide +kernel

/-- backtracking counts as well: each search of this run makes two evaluations, eight backtracking steps and one
evaluation at step 0 -/
example : (nlcg (counted badOps) { maxiter := 1, tol := 1 / 100, tau := 1 / 10, restart := 2 } 30 0
    { s := (7, 0), file := [], info := { vals := none, converged := false }, force := false, trace := [] }).map
    (fun r => r.2.s.2) = some 11 := by decide +kernel

end Nlcg
