import Verif.Proofs.QuadraticRate
import Mathlib.Analysis.InnerProductSpace.PiL2

/-!
# C103: on a quadratic energy the run finds the minimum in as many iterations as there are unknowns

`Spec.Quadratic V`: an energy `⟪x, A x⟫ / 2 - ⟪b, x⟫ + c` with positive `A`, and a positive preconditioner.
-/

namespace Nlcg
open Spec Arith
variable {V : Type} [NormedAddCommGroup V] [InnerProductSpace ℝ V] [FiniteDimensional ℝ V]

/-- **C103**: a run on a quadratic energy with `n` unknowns, at least `n` iterations between restarts and an iteration
limit of at least `n + 2` reports convergence, in iteration `n + 1` at the latest. The point it leaves in the backend is
the one it reports. One energy evaluation more than the trial step per iteration is enough (`fuel = 1`). -/
theorem C103_terminates (q : Quadratic V) (x0 : V) (prm : NlcgParams ℝ) (htol : 0 < prm.tol)
    (hr : prm.restart ≠ 0) (hrn : (Module.finrank ℝ V : ℤ) ≤ prm.restart)
    (hmax : (Module.finrank ℝ V : ℤ) + 2 ≤ prm.maxiter) (fuel rank : ℕ) (w : NState ℝ V) :
    ∃ vals w', nlcg (q.ops x0) prm (fuel + 1) rank w = some (.ok { vals := some vals, converged := true }, w') ∧
      vals.iter ≤ Module.finrank ℝ V + 1 ∧ vals.F = q.energy w'.s ∧
      inner ℝ (q.gradient w'.s) (q.K (q.gradient w'.s)) < prm.tol := by
  cases h : nlcg (q.ops x0) prm (fuel + 1) rank w with
  | none => exact absurd h (Quad.ends q fuel rank htol hr w)
  | some p =>
    obtain ⟨o, w'⟩ := p
    suffices hh : ∃ vals, o = .ok { vals := some vals, converged := true } ∧ vals.iter ≤ Module.finrank ℝ V + 1 ∧
        vals.F = q.energy w'.s ∧ Quad.N q w'.s < prm.tol by
      obtain ⟨vals, rfl, e⟩ := hh
      exact ⟨vals, w', rfl, e⟩
    cases nlcg_run (q.ops x0) prm (fuel + 1) rank w _ _ h with
    | construct o s1 h1 h2 => simp only [Quadratic.ops, Prod.mk.injEq] at h1; rw [← h1.1] at h2; simp [Res.isOk] at h2
    | setup s1 o s2 h1 h2 h3 => simp only [Quadratic.ops, Prod.mk.injEq] at h2; rw [← h2.1] at h3; simp [Res.isOk] at h3
    | restarted s1 pt s2 o s3 h1 h2 h3 h4 =>
      simp only [Quadratic.ops, Prod.mk.injEq] at h3; rw [← h3.1] at h4; simp [Res.isOk] at h4
    | loop s1 pt s2 slope dir s3 o w' h1 h2 h3 h4 =>
      simp only [Quadratic.ops, Prod.mk.injEq, Res.ok.injEq] at h2 h3
      obtain ⟨rfl, rfl⟩ := h2
      obtain ⟨⟨rfl, rfl⟩, rfl⟩ := h3
      exact Quad.first q htol hr hrn hmax h4

/-- **C103**, shorter restart intervals: every restart interval leads to convergence. The number of iterations is at most
`2 L (E(x₀) - E(x)) / tol`, where `L` bounds the curvature of the energy in the metric of the preconditioner. -/
theorem C103_any_restart (q : Quadratic V) (x0 : V) (prm : NlcgParams ℝ) (htol : 0 < prm.tol) (hr : prm.restart ≠ 0)
    (L E : ℝ) (hL : 0 < L) (hLA : ∀ g, inner ℝ (q.K g) (q.A (q.K g)) ≤ L * inner ℝ g (q.K g))
    (hE : ∀ x, E ≤ q.energy x) (hmax : 2 * L * (q.energy x0 - E) < prm.maxiter * prm.tol)
    (fuel rank : ℕ) (w : NState ℝ V) :
    ∃ vals w', nlcg (q.ops x0) prm (fuel + 1) rank w = some (.ok { vals := some vals, converged := true }, w') ∧
      vals.iter * prm.tol ≤ 2 * L * (q.energy x0 - vals.F) ∧ vals.F = q.energy w'.s ∧
      inner ℝ (q.gradient w'.s) (q.K (q.gradient w'.s)) < prm.tol := by
  obtain ⟨o, w', h1, h2⟩ := Quad.whole q htol hr (x0 := x0) (fuel := fuel) (rank := rank) w
  have hpos : 0 < prm.maxiter := by
    have h3 : 0 ≤ 2 * L * (q.energy x0 - E) := mul_nonneg (by positivity) (sub_nonneg.2 (hE x0))
    have h4 : (0 : ℝ) < prm.maxiter := by
      by_contra h
      push Not at h
      have := mul_nonpos_of_nonpos_of_nonneg h htol.le
      linarith
    exact_mod_cast h4
  have hm : ((0 + prm.maxiter.toNat : ℕ) : ℝ) = prm.maxiter := by
    rw [Nat.zero_add, ← Int.cast_natCast, Int.toNat_of_nonneg hpos.le]
  obtain ⟨vals, rfl, e⟩ := Quad.count q hL hLA hE htol hr h2 (Quad.Cycle.fresh q rfl rfl rfl rfl) (by simp) (by rw [hm]; exact hmax)
  exact ⟨vals, w', h1, e⟩

/-- The point of the statement: where the gradient vanishes is the minimum. -/
theorem C103_minimum (q : Quadratic V) (x : V) (h : q.gradient x = 0) (y : V) (hy : y ≠ x) : q.energy x < q.energy y := by
  have := Quad.energy_step q x (y - x) 1
  rw [h, inner_zero_left, one_smul, add_sub_cancel] at this
  have hp := q.posA (y - x) (sub_ne_zero.2 hy)
  linarith

/-! ## A concrete case -/

/-- `(x₀² + 3 x₁²) / 2 - x₀`, without a preconditioner -/
noncomputable def bowl : Quadratic (EuclideanSpace ℝ (Fin 2)) where
  A := { toFun := fun x => !₂[x 0, 3 * x 1]
         map_add' := fun x y => by ext i; fin_cases i <;> simp [mul_add]
         map_smul' := fun c x => by ext i; fin_cases i <;> simp [mul_left_comm] }
  K := LinearMap.id
  b := !₂[1, 0]
  c := 0
  symA x y := by simp [PiLp.inner_apply, Fin.sum_univ_two]; ring
  symK x y := rfl
  posA x hx := by
    simp only [PiLp.inner_apply, Fin.sum_univ_two]
    simp
    have : x 0 ≠ 0 ∨ x 1 ≠ 0 := by
      by_contra h
      push Not at h
      exact hx (by ext i; fin_cases i <;> simp [h.1, h.2])
    rcases this with h | h
    · have := mul_self_pos.2 h
      nlinarith [mul_self_nonneg (x 1)]
    · have := mul_self_pos.2 h
      nlinarith [mul_self_nonneg (x 0)]
  posK x hx := by simpa using real_inner_self_pos.2 hx

example : Module.finrank ℝ (EuclideanSpace ℝ (Fin 2)) = 2 := by simp

/-- the default parameters of the host code meet the hypotheses -/
example (w : NState ℝ (EuclideanSpace ℝ (Fin 2))) : ∃ vals w',
    nlcg (bowl.ops 0) { maxiter := 300, tol := 1 / 10 ^ 9, tau := 1 / 10, restart := 10 } 1 0 w =
      some (.ok { vals := some vals, converged := true }, w') ∧ vals.iter ≤ 3 := by
  obtain ⟨vals, w', h1, h2, -⟩ := C103_terminates bowl 0 { maxiter := 300, tol := 1 / 10 ^ 9, tau := 1 / 10, restart := 10 }
    (by norm_num) (by norm_num) (by simp) (by simp) 0 0 w
  exact ⟨vals, w', h1, by simpa using h2⟩

theorem bowl_curvature (g : EuclideanSpace ℝ (Fin 2)) : inner ℝ (bowl.K g) (bowl.A (bowl.K g)) ≤ 3 * inner ℝ g (bowl.K g) := by
  simp [bowl, PiLp.inner_apply, Fin.sum_univ_two, EuclideanSpace.real_norm_sq_eq]
  nlinarith [mul_self_nonneg (g 0)]

theorem bowl_min (x : EuclideanSpace ℝ (Fin 2)) : -1 / 2 ≤ bowl.energy x := by
  simp [bowl, Quadratic.energy, PiLp.inner_apply, Fin.sum_univ_two]
  nlinarith [mul_self_nonneg (x 0 - 1), mul_self_nonneg (x 1)]

/-- steepest descent on the bowl, tolerance 1/100 -/
example (w : NState ℝ (EuclideanSpace ℝ (Fin 2))) : ∃ vals w',
    nlcg (bowl.ops !₂[4, 1]) { maxiter := 4000, tol := 1 / 100, tau := 1 / 10, restart := 1 } 1 0 w =
      some (.ok { vals := some vals, converged := true }, w') := by
  obtain ⟨vals, w', h1, -⟩ := C103_any_restart bowl !₂[4, 1] { maxiter := 4000, tol := 1 / 100, tau := 1 / 10, restart := 1 }
    (by norm_num) (by norm_num) 3 (-1 / 2) (by norm_num) bowl_curvature bowl_min
    (by simp [bowl, Quadratic.energy, PiLp.inner_apply, Fin.sum_univ_two]; norm_num) 0 0 w
  exact ⟨vals, w', h1⟩

/-! ## The restart interval matters -/

/-- a point of the zigzag path of steepest descent -/
noncomputable def zig (s a : ℝ) : EuclideanSpace ℝ (Fin 2) := !₂[1 + 3 * a, s * a]

theorem zig_gradient (s a : ℝ) : bowl.gradient (zig s a) = !₂[3 * a, 3 * s * a] := by
  ext i
  fin_cases i <;> simp [bowl, zig, Quadratic.gradient]
  ring

theorem zig_N {s : ℝ} (hs : s * s = 1) (a : ℝ) : Quad.N bowl (zig s a) = 18 * (a * a) := by
  rw [Quad.N, zig_gradient]
  simp [bowl, Fin.sum_univ_two, EuclideanSpace.real_norm_sq_eq]
  linear_combination 9 * a ^ 2 * hs

theorem zig_step {s a : ℝ} (hs : s * s = 1) (ha : a ≠ 0) :
    zig s a + Quad.step bowl (zig s a) (-bowl.K (bowl.gradient (zig s a))) • (-bowl.K (bowl.gradient (zig s a))) =
      zig (-s) (a / 2) := by
  have hstep : Quad.step bowl (zig s a) (-bowl.K (bowl.gradient (zig s a))) = 1 / 2 := by
    rw [Quad.step, zig_gradient]
    have e1 : inner ℝ (!₂[3 * a, 3 * s * a] : EuclideanSpace ℝ (Fin 2)) (-bowl.K !₂[3 * a, 3 * s * a]) = -(18 * a ^ 2) := by
      simp [bowl, Fin.sum_univ_two, EuclideanSpace.real_norm_sq_eq]
      linear_combination -9 * a ^ 2 * hs
    have e2 : inner ℝ (-bowl.K !₂[3 * a, 3 * s * a]) (bowl.A (-bowl.K !₂[3 * a, 3 * s * a])) = 36 * a ^ 2 := by
      simp [bowl, PiLp.inner_apply, Fin.sum_univ_two]
      linear_combination 27 * a ^ 2 * hs
    rw [e1, e2]
    field_simp
    norm_num
  rw [hstep, zig_gradient]
  ext i
  fin_cases i <;> simp [bowl, zig] <;> ring

theorem zig_loop {tol tau : ℝ} {mx : ℤ} {fuel rank : ℕ} (htol : 0 < tol) {m i : ℕ} {v : Vars ℝ _ _} {w : NState ℝ _}
    {o : Res (Info ℝ)} {w' : NState ℝ _}
    (h : LoopRun (bowl.ops !₂[4, 1]) { maxiter := mx, tol := tol, tau := tau, restart := 1 } (fuel + 1) rank m i v w o w') :
    ∀ s a : ℝ, s * s = 1 → 0 < a → tol ≤ 18 * (a / 2 ^ m) ^ 2 → v.pt = zig s a → w.s = v.pt → v.slope = -Quad.N bowl v.pt →
      v.dir = -bowl.K (bowl.gradient v.pt) → w.info.converged = false →
      ∃ info, o = .ok info ∧ info.converged = false := by
  have big : ∀ {v : Vars ℝ (EuclideanSpace ℝ (Fin 2)) (EuclideanSpace ℝ (Fin 2))} {m : ℕ} {s a : ℝ}, s * s = 1 → 0 < a →
      tol ≤ 18 * (a / 2 ^ (m + 1)) ^ 2 → v.pt = zig s a → v.slope = -Quad.N bowl v.pt →
      (Arith.abs v.slope <ᶠ tol) = false := by
    intro v m s a hs ha ht hp hsl
    rw [hsl, hp, zig_N hs]
    simp only [real_abs, real_lt, abs_neg, decide_eq_false_iff_not, not_lt]
    rw [abs_of_pos (by positivity)]
    refine ht.trans ?_
    have h1 : (1 : ℝ) ≤ 2 ^ (m + 1) := one_le_pow₀ (by norm_num)
    have h2 : a / 2 ^ (m + 1) ≤ a := div_le_self ha.le h1
    have h3 : 0 ≤ a / 2 ^ (m + 1) := by positivity
    nlinarith
  induction h with
  | limit i v w =>
    intro s a hs ha ht hp hw hsl hd hi
    exact ⟨_, rfl, hi⟩
  | success m i v w s1 s2 file' h1 h2 h3 =>
    intro s a hs ha ht hp hw hsl hd hi
    rw [big hs ha ht hp hsl] at h1; simp at h1
  | successJson m i v w o s1 file' h1 h2 h3 =>
    intro s a hs ha ht hp hw hsl hd hi
    rw [big hs ha ht hp hsl] at h1; simp at h1
  | successPrint m i v w s1 file' o s2 h1 h2 h3 h4 =>
    intro s a hs ha ht hp hw hsl hd hi
    rw [big hs ha ht hp hsl] at h1; simp at h1
  | step m i v w v' w1 o w' h1 h2 h3 ih =>
    intro s a hs ha ht hp hw hsl hd hi
    have hg := Quad.small bowl htol hsl h1
    have hdir : v.slope = inner ℝ (bowl.gradient v.pt) v.dir := by rw [hd, hsl, inner_neg_right, Quad.N]
    have hready : Quad.Ready bowl v w := ⟨hw, hsl, hdir⟩
    have hc := Quad.dir_ok bowl (hready.slope ▸ hready.dir) hg
    obtain ⟨v'', e1, b2, b3, b4, b5, b6⟩ := Quad.body bowl h2 hw hc hdir hready.nonpos (by norm_num)
    obtain rfl := Res.ok.inj e1
    have hd' : v'.dir = -bowl.K (bowl.gradient v'.pt) := by
      rcases b6 with ⟨-, c⟩ | ⟨c, -⟩
      · exact c
      · exact absurd (one_dvd _) c
    have hp' : v'.pt = zig (-s) (a / 2) := by rw [b2, hd, hp, zig_step hs ha.ne']
    refine ih (-s) (a / 2) (by linarith) (by positivity) ?_ hp' b3 b4 hd' ?_
    · have : a / 2 / 2 ^ m = a / 2 ^ (m + 1) := by rw [div_div, pow_succ']
      rw [this]; exact ht
    · generalize hov : (Res.ok v' : Res (Vars ℝ (EuclideanSpace ℝ (Fin 2)) (EuclideanSpace ℝ (Fin 2)))) = ov at h2
      cases h2 with
      | json o s1 file' g1 g2 => cases o <;> simp_all [Res.fail, Res.isOk]
      | hostPrint s1 s2 file' o g1 g2 g3 => rfl
      | search s1 s2 file' o st tr g1 g2 g3 g4 => rfl
      | searched s1 s2 file' r st _ dirs s' force' g1 g2 g3 g4 => rfl
  | caught m i v w e w1 h1 h2 h3 =>
    intro s a hs ha ht hp hw hsl hd hi
    have hdir : v.slope = inner ℝ (bowl.gradient v.pt) v.dir := by rw [hd, hsl, inner_neg_right, Quad.N]
    obtain ⟨v'', e1, -⟩ := Quad.Ready.next bowl (by norm_num) ⟨hw, hsl, hdir⟩ (Quad.small bowl htol hsl h1) h2
    simp at e1
  | uncaught m i v w o w1 h1 h2 h3 h4 =>
    intro s a hs ha ht hp hw hsl hd hi
    have hdir : v.slope = inner ℝ (bowl.gradient v.pt) v.dir := by rw [hd, hsl, inner_neg_right, Quad.N]
    obtain ⟨v'', e1, -⟩ := Quad.Ready.next bowl (by norm_num) ⟨hw, hsl, hdir⟩ (Quad.small bowl htol hsl h1) h2
    rw [e1] at h3; simp [Res.isOk] at h3

/-- **C103**, the hypothesis on `restart` is needed: with `restart = 1` no number of iterations is enough for every
tolerance, although there are only two unknowns. -/
theorem C103_restart_needed (m : ℕ) (tau : ℝ) (fuel rank : ℕ) (w : NState ℝ (EuclideanSpace ℝ (Fin 2))) :
    ∃ info w', nlcg (bowl.ops !₂[4, 1]) { maxiter := m, tol := 18 / 4 ^ m, tau := tau, restart := 1 } (fuel + 1) rank w =
      some (.ok info, w') ∧ info.converged = false := by
  have htol : (0 : ℝ) < 18 / 4 ^ m := by positivity
  obtain ⟨o, w', h1, h2⟩ := Quad.whole bowl (prm := { maxiter := m, tol := 18 / 4 ^ m, tau := tau, restart := 1 }) htol
    (by norm_num) (x0 := !₂[4, 1]) (fuel := fuel) (rank := rank) w
  obtain ⟨info, rfl, e⟩ := zig_loop htol h2 1 1 (by norm_num) (by norm_num) (by
      show (18 : ℝ) / 4 ^ m ≤ 18 * (1 / 2 ^ (m : ℤ).toNat) ^ 2
      rw [Int.toNat_natCast, div_pow, one_pow, ← pow_mul, mul_comm m 2, pow_mul]
      norm_num
      rw [div_eq_mul_inv]) (by
      show (!₂[4, 1] : EuclideanSpace ℝ (Fin 2)) = zig 1 1
      ext i
      fin_cases i <;> simp [zig]
      norm_num) rfl rfl rfl rfl
  exact ⟨info, w', h1, e⟩

end Nlcg
