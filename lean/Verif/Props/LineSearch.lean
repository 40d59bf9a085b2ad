import Verif.Proofs.LineSearchReal

/-!
# Line search: properties C22 to C26, and C62

`lineSearch env p fuel slope st` is the call `ls(G, FE, slope, force_restart)`. `env.G` and
`env.getF` act on an arbitrary backend state, so a theorem for every `env` holds for every energy
landscape, also a non-deterministic one (the state can carry the choices). The arithmetic is
arbitrary unless a statement mentions `ℝ`. `st.evals` lists the steps evaluated so far.
-/

namespace Nlcg
open Arith
variable {α σ ρ : Type} [Arith α]

/-- C22. A search that returns normally leaves an energy that is not above the starting energy
(it is lower, or the comparison "start < final" is false), or it has just reset to step 0 and
raised the restart flag. -/
theorem C22_accepted_step_not_above (env : LSEnv α σ ρ) (p : LSParams α) (fuel : Nat) (slope : α)
    (st st' : LSState α σ) (r : ρ)
    (h : lineSearch env p fuel slope st = some (.ok r, st')) :
    (st'.forceRestart = false ∧
      ((env.getF st'.s <ᶠ env.getF st.s) = true ∨ (env.getF st.s <ᶠ env.getF st'.s) = false)) ∨
    (st'.forceRestart = true ∧ st.forceRestart = false ∧
      ∃ s0 rest, env.G (lit 0) s0 = (.ok r, st'.s) ∧ st'.evals = lit 0 :: rest) := by
  rcases lineSearch_inv env p fuel slope st st' _ h with ⟨_, h1, _⟩ | ⟨_, ⟨h1, _⟩ | ⟨stm, h1, h2⟩⟩
  · simp at h1
  · rcases (qline_spec env p fuel slope st st' _ h1).2 with ⟨r', hr, -, h3, h4⟩ | ⟨h3, -⟩ | ⟨h3, -⟩
    · exact Or.inl ⟨h4, Or.inr h3⟩
    · simp at h3
    · exact absurd rfl (h3 r)
  · have hflag : stm.forceRestart = st.forceRestart := by
      rcases (qline_spec env p fuel slope st stm _ h1).2 with ⟨r', hr, -⟩ | ⟨-, h3, -⟩ | ⟨-, h3, -⟩
      · simp at hr
      · exact h3
      · exact h3
    rcases btSearch_spec env p fuel _ stm st' _ h2 with ⟨_, h3, _⟩ | ⟨_, k, stn, hk, hk2, hc⟩
    · simp at h3
    · rcases hc with ⟨r', hr, rfl, -, h4, h5, -⟩ | ⟨-, h4, ⟨-, h5, -⟩ | ⟨h5, h6⟩⟩ | ⟨-, -, h5, -⟩
      · exact Or.inl ⟨h5, Or.inl h4⟩
      · simp at h5
      · obtain ⟨g1, g2, g3⟩ := evalG_ok h6
        exact Or.inr ⟨g3, hflag ▸ h5, stn.s, stn.evals, g1, g2⟩
      · exact absurd rfl (h5 r)

/-- C22 in exact arithmetic. -/
theorem C22_energy_not_raised (env : LSEnv ℝ σ ρ) (p : LSParams ℝ) (fuel : Nat) (slope : ℝ)
    (st st' : LSState ℝ σ) (r : ρ)
    (h : lineSearch env p fuel slope st = some (.ok r, st')) :
    env.getF st'.s ≤ env.getF st.s ∨ (st'.forceRestart = true ∧ ∃ rest, st'.evals = 0 :: rest) := by
  rcases C22_accepted_step_not_above env p fuel slope st st' r h with ⟨_, h | h⟩ | ⟨h1, _, s0, rest, _, h2⟩
  · simp only [real_lt, decide_eq_true_eq] at h
    exact Or.inl h.le
  · simp only [real_lt, decide_eq_false_iff_not, not_lt] at h
    exact Or.inl h
  · refine Or.inr ⟨h1, rest, ?_⟩
    simpa using h2

/-- A landscape given by a function of the step: the state is the energy of the last point. -/
def landscape {β : Type} (φ : β → β) : LSEnv β β β := { G := fun t _ => (.ok t, φ t), getF := id }

/-- C22, C24: in a landscape that depends only on the step, backtracking finds the first step of
`t_trial, t_trial*tau, ...` with lower energy: no reset happens, provided the steps up to there
are above `1e-8`. -/
theorem C22_backtracking_finds_descent (env : LSEnv α σ ρ) (φ : α → α) (p : LSParams α)
    (F0 : α) (st : LSState α σ)
    (hdet : ∀ t s, ∃ r s', env.G t s = (.ok r, s') ∧ env.getF s' = φ t)
    (htau : (lit 1 ≤ᶠ p.tau) = false) (i fuel : Nat) (hfuel : i < fuel)
    (hpos : ∀ j ≤ i, (lit (1 / 10 ^ 8) <ᶠ nthStep p.tTrial p.tau j) = true)
    (hfirst : ∀ j < i, (φ (nthStep p.tTrial p.tau j) <ᶠ F0) = false)
    (hlow : (φ (nthStep p.tTrial p.tau i) <ᶠ F0) = true) :
    ∃ r st', btSearch env p fuel F0 st = some (.ok r, st') ∧
      env.getF st'.s = φ (nthStep p.tTrial p.tau i) ∧ st'.forceRestart = false ∧
      st'.evals.length = st.evals.length + (i + 1) := by
  have key : ∀ (i fuel : Nat) (t : α) (st : LSState α σ), i < fuel →
      (∀ j ≤ i, (lit (1 / 10 ^ 8) <ᶠ nthStep t p.tau j) = true) →
      (∀ j < i, (φ (nthStep t p.tau j) <ᶠ F0) = false) →
      (φ (nthStep t p.tau i) <ᶠ F0) = true →
      ∃ r st', btLoop env p.tau F0 fuel t st = some (.ok (some r), st') ∧
        env.getF st'.s = φ (nthStep t p.tau i) ∧ st'.forceRestart = false ∧
        st'.evals.length = st.evals.length + (i + 1) := by
    intro i
    induction i with
    | zero =>
      intro fuel t st hf hp _ hl
      obtain ⟨fuel, rfl⟩ : ∃ j, fuel = j + 1 := ⟨fuel - 1, by omega⟩
      obtain ⟨r, s', hG, hF⟩ := hdet t st.s
      have h0 := hp 0 (by omega)
      simp only [nthStep] at h0 hl ⊢
      refine ⟨r, { s := s', forceRestart := false, evals := t :: st.evals }, ?_, hF, rfl, by simp⟩
      rw [btLoop, if_pos h0, FM.bind_apply]
      simp only [evalG, hG, readF_bind, hF]
      rw [if_pos hl]
      rfl
    | succ i ih =>
      intro fuel t st hf hp hfirst hl
      obtain ⟨fuel, rfl⟩ : ∃ j, fuel = j + 1 := ⟨fuel - 1, by omega⟩
      obtain ⟨r, s', hG, hF⟩ := hdet t st.s
      have h0 := hp 0 (by omega)
      have h1 := hfirst 0 (by omega)
      simp only [nthStep] at h0 h1
      obtain ⟨r2, st2, e1, e2, e3, e4⟩ := ih fuel (t *ᶠ p.tau)
        { s := s', forceRestart := st.forceRestart, evals := t :: st.evals } (by omega)
        (fun j hj => hp (j + 1) (by omega)) (fun j hj => hfirst (j + 1) (by omega)) hl
      refine ⟨r2, st2, ?_, e2, e3, by simp only [List.length_cons] at e4; omega⟩
      rw [btLoop, if_pos h0, FM.bind_apply]
      simp only [evalG, hG, readF_bind, hF]
      rw [if_neg (by rw [h1]; simp)]
      exact e1
  obtain ⟨r, st', h1, h2, h3, h4⟩ := key i fuel p.tTrial st hfuel hpos hfirst hlow
  refine ⟨r, st', ?_, h2, h3, h4⟩
  rw [btSearch, if_neg (by rw [htau]; simp), FM.bind_apply, h1]
  rfl

/-- C23. The returned tuple is the result of the last evaluation, and the backend is exactly in the
state that evaluation left. -/
theorem C23_result_is_last_evaluation (env : LSEnv α σ ρ) (p : LSParams α) (fuel : Nat) (slope : α)
    (st st' : LSState α σ) (r : ρ)
    (h : lineSearch env p fuel slope st = some (.ok r, st')) :
    ∃ t s0 rest, env.G t s0 = (.ok r, st'.s) ∧ st'.evals = t :: rest := by
  rcases lineSearch_inv env p fuel slope st st' _ h with ⟨_, h1, _⟩ | ⟨_, ⟨h1, _⟩ | ⟨stm, h1, h2⟩⟩
  · simp at h1
  · rcases (qline_spec env p fuel slope st st' _ h1).2 with ⟨r', hr, h2, -⟩ | ⟨h3, -⟩ | ⟨h3, -⟩
    · cases hr; exact h2
    · simp at h3
    · exact absurd rfl (h3 r)
  · rcases btSearch_spec env p fuel _ stm st' _ h2 with ⟨_, h3, _⟩ | ⟨_, k, stn, hk, hk2, hc⟩
    · simp at h3
    · rcases hc with ⟨r', hr, rfl, h4, -⟩ | ⟨-, h4, ⟨-, h5, -⟩ | ⟨h5, h6⟩⟩ | ⟨-, -, h5, -⟩
      · cases hr; exact h4
      · simp at h5
      · obtain ⟨g1, g2, g3⟩ := evalG_ok h6
        exact ⟨_, _, _, g1, g2⟩
      · exact absurd rfl (h5 r)

/-- C24. `tau >= 1` is rejected before any evaluation. -/
theorem C24_tau_refused (env : LSEnv α σ ρ) (p : LSParams α) (fuel : Nat) (F0 : α)
    (st : LSState α σ) (h : (lit 1 ≤ᶠ p.tau) = true) :
    btSearch env p fuel F0 st = some (.throw .runtimeError, st) := by
  rw [btSearch, if_pos h]
  rfl

/-- C24. For `tau < 1` (also negative) backtracking ends, whatever the landscape. -/
theorem C24_terminates (p : LSParams ℝ) (h : p.tau < 1) :
    ∃ N, ∀ fuel ≥ N, ∀ (σ ρ : Type) (env : LSEnv ℝ σ ρ) (F0 : ℝ) (st : LSState ℝ σ),
      btSearch env p fuel F0 st ≠ none := by
  obtain ⟨n, hn⟩ := exists_small_step p.tTrial p.tau h
  exact ⟨n, fun fuel hf σ ρ env F0 st => btSearch_ne_none env p F0 n fuel hf hn st⟩

/-- C24. The steps tried are `t_trial, t_trial*tau, t_trial*tau^2, ...`, all above `1e-8`, possibly
followed by one evaluation at step 0. Their number is at most
`1 + log(t_trial/1e-8)/log(1/tau)`. -/
theorem C24_cost (env : LSEnv ℝ σ ρ) (p : LSParams ℝ) (h0 : 0 < p.tau) (h1 : p.tau < 1)
    (fuel : Nat) (F0 : ℝ) (st st' : LSState ℝ σ) (o : Res ρ)
    (h : btSearch env p fuel F0 st = some (o, st')) :
    ∃ k : Nat,
      (st'.evals = ((List.range k).map fun i => p.tTrial * p.tau ^ i).reverse ++ st.evals ∨
       st'.evals = 0 :: ((List.range k).map fun i => p.tTrial * p.tau ^ i).reverse ++ st.evals) ∧
      (∀ i < k, 1 / 10 ^ 8 < p.tTrial * p.tau ^ i) ∧
      (k ≠ 0 → (k : ℝ) ≤ 1 + Real.log (p.tTrial / (1 / 10 ^ 8)) / Real.log (1 / p.tau)) := by
  have hall : ∀ k, (∀ x ∈ geomSteps p.tTrial p.tau k, (lit (1 / 10 ^ 8) <ᶠ x) = true) →
      ∀ i < k, 1 / 10 ^ 8 < p.tTrial * p.tau ^ i := by
    intro k hk i hi
    rw [geomSteps_real] at hk
    have := hk (p.tTrial * p.tau ^ i) (by simp only [List.mem_map, List.mem_range]; exact ⟨i, hi, rfl⟩)
    simp only [real_lit, real_lt, decide_eq_true_eq] at this
    push_cast at this
    exact this
  rcases btSearch_spec env p fuel _ st st' _ h with ⟨h3, _⟩ | ⟨_, k, stn, hk, hk2, hc⟩
  · simp at h3; linarith
  · refine ⟨k, ?_, hall k hk2, geom_count_bound _ _ h0 h1 k hk2⟩
    rw [geomSteps_real] at hk
    rcases hc with ⟨r', hr, rfl, -⟩ | ⟨-, h4, ⟨-, h5, rfl⟩ | ⟨h5, h6⟩⟩ | ⟨rfl, -⟩
    · exact Or.inl hk
    · exact Or.inl hk
    · obtain ⟨g1, g2, g3⟩ := evalG_ok h6
      right
      rw [g2]
      simp [hk]
    · exact Or.inl hk

/-- With the default values (`t_trial = 0.2`, `tau = 0.1`) at most 8 steps are tried. -/
example (k : Nat) (h : ∀ i < k, (1 : ℝ) / 10 ^ 8 < 2 / 10 * (1 / 10) ^ i) : k ≤ 8 := by
  by_contra hk
  have := h 8 (by omega)
  norm_num at this

/-- C25 is false in exact arithmetic: in the landscape `F(t) = -t - t^2` with slope `-1` the
quadratic search enlarges its trial step for ever. -/
theorem C25_not_terminating :
    ∀ fuel, qline (landscape fun t : ℝ => -t - t ^ 2) { tTrial := 1 / 5, tau := 1 / 10 } fuel (-1)
      { s := 0, forceRestart := false, evals := [] } = none := by
  have key : ∀ (fuel : Nat) (t : ℝ) (st : LSState ℝ ℝ), 0 < t →
      qlineLoop (landscape fun t : ℝ => -t - t ^ 2) 0 (-1) fuel t st = none := by
    intro fuel
    induction fuel with
    | zero => intros; rfl
    | succ n ih =>
      intro t st ht
      rw [qlineLoop, FM.bind_apply]
      simp only [evalG, landscape, readF_bind]
      rw [if_pos]
      · exact ih _ _ (by simp only [real_mul, real_lit]; positivity)
      · simp only [qCurv, id, real_lt, real_div, real_sub, real_mul, real_lit, decide_eq_true_eq]
        have : (-t - t ^ 2 - -1 * t - 0) / (t * t) = -1 := by field_simp; ring
        rw [this]
        norm_num
  intro fuel
  rw [qline, readF_bind, FM.bind_apply]
  have := key fuel (1 / 5) { s := 0, forceRestart := false, evals := [] } (by norm_num)
  simp only [landscape, id] at this ⊢
  rw [this]

/-- C25 for landscapes bounded below: with a negative slope the quadratic search ends. Missing
for the full statement: landscapes that are not bounded below, where it is false in exact
arithmetic (`C25_not_terminating`), and slope 0, which the solver excludes by its convergence
test. -/
theorem C25_bounded_below_partial (env : LSEnv ℝ σ ρ) (p : LSParams ℝ) (slope L : ℝ)
    (ht : 0 < p.tTrial) (hs : slope < 0)
    (hL : ∀ t s r s', env.G t s = (.ok r, s') → L ≤ env.getF s') (st : LSState ℝ σ) :
    ∃ N, ∀ fuel ≥ N, qline env p fuel slope st ≠ none := by
  obtain ⟨n, hn⟩ := pow_unbounded_of_one_lt ((env.getF st.s - L) / (-slope) / p.tTrial)
    (show (1 : ℝ) < 5 by norm_num)
  refine ⟨n + 1, fun fuel hf => qline_ne_none env p slope n fuel (by omega) st ?_⟩
  intro t' s0 r s hG
  have h5 : nthStep p.tTrial (lit 5) n = p.tTrial * 5 ^ n := by
    rw [nthStep_real]; simp
  rw [h5]
  rw [div_lt_iff₀ ht, div_lt_iff₀ (by linarith)] at hn
  simp only [qCurv, real_lt, real_div, real_sub, real_mul, real_lit, decide_eq_false_iff_not, not_lt]
  push_cast
  apply div_nonneg
  · have := hL _ _ _ _ hG
    nlinarith
  · positivity

/-- C25 in floating point: in any arithmetic in which the square of the enlarged trial step
eventually makes the curvature non-negative or NaN (as overflow to infinity does), the quadratic
search ends after at most `K+1` trial evaluations, whatever the landscape. -/
theorem C25_terminates_by_overflow (env : LSEnv α σ ρ) (p : LSParams α) (slope : α) (K : Nat)
    (hK : ∀ x : α, ((x /ᶠ (nthStep p.tTrial (lit 5) K *ᶠ nthStep p.tTrial (lit 5) K)) <ᶠ lit 0) = false)
    (st : LSState α σ) : ∀ fuel > K, qline env p fuel slope st ≠ none :=
  fun fuel hf => qline_ne_none env p slope K fuel hf st (fun _ _ _ _ _ => hK _)

/-- An arithmetic with the overflow threshold of `double` meets the hypothesis with `K = 225`. -/
example : ∀ x : Ov, ((x /ᶠ (nthStep (Ov.num (1 / 5)) (lit 5) 225 *ᶠ nthStep (Ov.num (1 / 5)) (lit 5) 225)) <ᶠ lit 0)
    = false := by
  have hb : (1 / 5 : ℚ) * 5 ^ 225 < Ov.huge := by
    rw [Ov.huge_eq]
    calc (1 / 5 : ℚ) * 5 ^ 225 = 5 ^ 224 := by rw [show (225 : Nat) = 224 + 1 from rfl, pow_succ]; ring
      _ ≤ (2 ^ 3) ^ 224 := pow_le_pow_left₀ (by norm_num) (by norm_num) _
      _ = 2 ^ 672 := by rw [← pow_mul]
      _ < 2 ^ 1024 := pow_lt_pow_right₀ (by norm_num) (by norm_num)
  rw [Ov.nthStep_five _ _ (by norm_num) hb]
  have hs : (Ov.num (1 / 5 * 5 ^ 225) : Ov) *ᶠ Ov.num (1 / 5 * 5 ^ 225) = .inf false := by
    show Ov.norm _ = _
    have : ¬ |(1 / 5 * 5 ^ 225 : ℚ) * (1 / 5 * 5 ^ 225)| < Ov.huge := by
      rw [abs_of_pos (by positivity), Ov.huge_eq, not_lt]
      calc (2 : ℚ) ^ 1024 = (2 ^ 16) ^ 64 := by rw [← pow_mul]
        _ ≤ (5 ^ 7) ^ 64 := pow_le_pow_left₀ (by norm_num) (by norm_num) _
        _ = 5 ^ 448 := by rw [← pow_mul]
        _ = (1 / 5 * 5 ^ 225) * (1 / 5 * 5 ^ 225) := by
            rw [show (1 / 5 * 5 ^ 225 : ℚ) = 5 ^ 224 by
              rw [show (225 : Nat) = 224 + 1 from rfl, pow_succ]; ring, ← pow_add]
    rw [Ov.norm, if_neg this]
    simp only [Ov.inf.injEq, decide_eq_false_iff_not, not_lt]
    positivity
  intro x
  rw [hs]
  have h0 : (lit 0 : Ov) = .num 0 := Ov.norm_lt (by simpa using lt_trans (by norm_num) Ov.five_lt_huge)
  rw [h0]
  cases x <;> simp [Arith.div, Arith.lt, Ov.div, Ov.lt]

/-- C26. A positive slope is refused before any evaluation; nothing has changed. -/
theorem C26_positive_slope_refused (env : LSEnv α σ ρ) (p : LSParams α) (fuel : Nat) (slope : α)
    (st : LSState α σ) (h : (lit 0 <ᶠ slope) = true) :
    lineSearch env p fuel slope st = some (.throw .slopeError, st) := by
  rw [lineSearch, if_pos h]
  rfl

/-- C26, converse: the slope exception is raised only then, unless an evaluation itself raises it. -/
theorem C26_only_positive_slope (env : LSEnv α σ ρ) (p : LSParams α) (fuel : Nat) (slope : α)
    (st st' : LSState α σ) (hG : ∀ t s, (env.G t s).1 ≠ .throw .slopeError)
    (h : lineSearch env p fuel slope st = some (.throw .slopeError, st')) :
    (lit 0 <ᶠ slope) = true := by
  have hfail : ∀ s, ¬ FailedEval env (.throw .slopeError : Res ρ) s := by
    rintro s ⟨t, s0, ⟨e, he, hg⟩ | ⟨he, -⟩ | ⟨he, -⟩⟩
    · cases he; exact hG t s0 (by rw [hg])
    · simp at he
    · simp at he
  rcases lineSearch_inv env p fuel slope st st' _ h with ⟨h1, _⟩ | ⟨_, ⟨h1, _⟩ | ⟨stm, h1, h2⟩⟩
  · exact h1
  · rcases (qline_spec env p fuel slope st st' _ h1).2 with ⟨r', hr, -⟩ | ⟨h3, -⟩ | ⟨-, -, h3⟩
    · simp at hr
    · simp at h3
    · exact absurd h3 (hfail _)
  · rcases btSearch_spec env p fuel _ stm st' _ h2 with ⟨_, h3, _⟩ | ⟨_, k, stn, hk, hk2, hc⟩
    · simp at h3
    · rcases hc with ⟨r', hr, -⟩ | ⟨-, h4, ⟨-, h5, -⟩ | ⟨h5, h6⟩⟩ | ⟨-, -, -, h5⟩
      · simp at hr
      · simp at h5
      · obtain ⟨g1, -⟩ := evalG_ok h6
        exact absurd (by rw [g1]) (hG (lit 0) _)
      · exact absurd h5 (hfail _)

/-- C27 at the level of one search: the failure exception is raised only if the restart flag was
already up, and with the flag up a search never returns a reset. -/
theorem C27_search_failure (env : LSEnv α σ ρ) (p : LSParams α) (fuel : Nat) (slope : α)
    (st st' : LSState α σ) (hG : ∀ t s, (env.G t s).1 ≠ .throw .descentError) (o : Res ρ)
    (h : lineSearch env p fuel slope st = some (o, st')) :
    (o = .throw .descentError → st.forceRestart = true) ∧
    (∀ r, o = .ok r → st.forceRestart = true → st'.forceRestart = false) := by
  have hfail : ∀ s, ¬ FailedEval env (.throw .descentError : Res ρ) s := by
    rintro s ⟨t, s0, ⟨e, he, hg⟩ | ⟨he, -⟩ | ⟨he, -⟩⟩
    · cases he; exact hG t s0 (by rw [hg])
    · simp at he
    · simp at he
  refine ⟨?_, ?_⟩
  · rintro rfl
    rcases lineSearch_inv env p fuel slope st st' _ h with ⟨_, h1, _⟩ | ⟨_, ⟨h1, _⟩ | ⟨stm, h1, h2⟩⟩
    · simp at h1
    · rcases (qline_spec env p fuel slope st st' _ h1).2 with ⟨r', hr, -⟩ | ⟨h3, -⟩ | ⟨-, -, h3⟩
      · simp at hr
      · simp at h3
      · exact absurd h3 (hfail _)
    · have hflag : stm.forceRestart = st.forceRestart := by
        rcases (qline_spec env p fuel slope st stm _ h1).2 with ⟨r', hr, -⟩ | ⟨-, h3, -⟩ | ⟨-, h3, -⟩
        · simp at hr
        · exact h3
        · exact h3
      rcases btSearch_spec env p fuel _ stm st' _ h2 with ⟨_, h3, _⟩ | ⟨_, k, stn, hk, hk2, hc⟩
      · simp at h3
      · rcases hc with ⟨r', hr, -⟩ | ⟨-, h4, ⟨h5, -⟩ | ⟨h5, h6⟩⟩ | ⟨-, -, -, h5⟩
        · simp at hr
        · exact hflag ▸ h5
        · obtain ⟨g1, -⟩ := evalG_ok h6
          exact absurd (by rw [g1]) (hG (lit 0) _)
        · exact absurd h5 (hfail _)
  · rintro r rfl hfr
    rcases C22_accepted_step_not_above env p fuel slope st st' r h with ⟨h1, _⟩ | ⟨_, h1, _⟩
    · exact h1
    · rw [hfr] at h1; simp at h1

/-- C62. On an exactly quadratic landscape `F(t) = F0 + slope*t + a*t^2` with `a > 0` the
quadratic search evaluates one trial point, and returns the minimiser `-slope/(2a)`. -/
theorem C62_exact_on_parabola (F0 slope a : ℝ) (ha : 0 < a) (p : LSParams ℝ) (ht : p.tTrial ≠ 0)
    (fuel : Nat) (hf : 0 < fuel) (fr : Bool) :
    qline (landscape fun t : ℝ => F0 + slope * t + a * t ^ 2) p fuel slope
        { s := F0, forceRestart := fr, evals := [] } =
      some (.ok (-slope / (2 * a)),
        { s := F0 - slope ^ 2 / (4 * a), forceRestart := false,
          evals := [-slope / (2 * a), p.tTrial] }) ∧
    ∀ t, F0 - slope ^ 2 / (4 * a) ≤ F0 + slope * t + a * t ^ 2 := by
  obtain ⟨n, rfl⟩ : ∃ j, fuel = j + 1 := ⟨fuel - 1, by omega⟩
  have hc : qCurv F0 slope (F0 + slope * p.tTrial + a * p.tTrial ^ 2) p.tTrial = a := by
    simp only [qCurv, real_div, real_sub, real_mul]
    field_simp
    ring
  have hm : qMin slope a = -slope / (2 * a) := by simp [qMin]
  have hv : F0 + slope * (-slope / (2 * a)) + a * (-slope / (2 * a)) ^ 2 = F0 - slope ^ 2 / (4 * a) := by
    field_simp; ring
  refine ⟨?_, ?_⟩
  · have hle : F0 - slope ^ 2 / (4 * a) ≤ F0 := by
      have : 0 ≤ slope ^ 2 / (4 * a) := by positivity
      linarith
    have hloop : qlineLoop (landscape fun t : ℝ => F0 + slope * t + a * t ^ 2) F0 slope (n + 1) p.tTrial
        { s := F0, forceRestart := fr, evals := [] } =
        some (.ok (-slope / (2 * a)), { s := F0 + slope * p.tTrial + a * p.tTrial ^ 2, forceRestart := fr, evals := [p.tTrial] }) := by
      rw [qlineLoop, evalG_bind_ok (r := p.tTrial) (s' := F0 + slope * p.tTrial + a * p.tTrial ^ 2) rfl, readF_bind]
      rw [if_neg]
      · show some (Res.ok (qMin slope (qCurv F0 slope (F0 + slope * p.tTrial + a * p.tTrial ^ 2) p.tTrial)), _) = _
        rw [hc, hm]
      · show ¬ ((qCurv F0 slope (F0 + slope * p.tTrial + a * p.tTrial ^ 2) p.tTrial <ᶠ lit 0) = true)
        rw [hc]
        simp [ha.le]
    rw [qline, readF_bind]
    refine (FM.bind_ok hloop _).trans ?_
    show (evalG (landscape fun t : ℝ => F0 + slope * t + a * t ^ 2) (-slope / (2 * a)) >>= _) _ = _
    rw [evalG_bind_ok (r := -slope / (2 * a)) (s' := F0 - slope ^ 2 / (4 * a)) (by rw [← hv]; rfl), readF_bind]
    rw [if_neg]
    · rfl
    · show ¬ ((F0 <ᶠ (F0 - slope ^ 2 / (4 * a))) = true)
      simp only [real_lt, decide_eq_true_eq]
      linarith
  · intro t
    have : F0 + slope * t + a * t ^ 2 - (F0 - slope ^ 2 / (4 * a)) = a * (t + slope / (2 * a)) ^ 2 := by
      field_simp; ring
    have h2 : 0 ≤ a * (t + slope / (2 * a)) ^ 2 := by positivity
    linarith

/-! Concrete runs (rational arithmetic) that meet the hypotheses. -/

/-- a search that ends in the quadratic step -/
example : lineSearch (landscape fun t : ℚ => t ^ 2 - t) { tTrial := 1 / 5, tau := 1 / 10 } 3 (-1)
    { s := 0, forceRestart := true, evals := [] } =
    some (.ok (1 / 2), { s := -1 / 4, forceRestart := false, evals := [1 / 2, 1 / 5] }) := by
  decide +kernel

/-- a search that backtracks to a lower energy -/
example : lineSearch (landscape fun t : ℚ => if t = 1 / 500 then -1 else t) { tTrial := 1 / 5, tau := 1 / 10 } 9 (-1)
    { s := 0, forceRestart := false, evals := [] } =
    some (.ok (1 / 500),
      { s := -1, forceRestart := false, evals := [1 / 500, 1 / 50, 1 / 5, 1 / 20, 1 / 5] }) := by
  decide +kernel

/-- a search that resets, and one that fails because the flag is already up -/
example : lineSearch (landscape fun t : ℚ => t) { tTrial := 1 / 5, tau := 1 / 1000 } 9 (-1)
      { s := 0, forceRestart := false, evals := [] } =
      some (.ok 0, { s := 0, forceRestart := true, evals := [0, 1 / 5000000, 1 / 5000, 1 / 5, 1 / 20, 1 / 5] }) ∧
    lineSearch (landscape fun t : ℚ => t) { tTrial := 1 / 5, tau := 1 / 1000 } 9 (-1)
      { s := 0, forceRestart := true, evals := [] } =
      some (.throw .descentError,
        { s := 1 / 5000000, forceRestart := true, evals := [1 / 5000000, 1 / 5000, 1 / 5, 1 / 20, 1 / 5] }) := by
  decide +kernel

end Nlcg
