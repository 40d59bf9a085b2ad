import Verif.Proofs.DriverTotal
import Verif.Proofs.RunSpec

/-!
# The solver driver: properties C27 to C35

`nlcg ops prm fuel rank w = some (o, w')`: a run started in state `w` ends with outcome `o` in
state `w'`. `ops` is everything outside the driver (host program, directions, geodesic, free
energy), acting on an arbitrary backend state, so a statement for every `ops` holds for every
backend behaviour. `w'.trace` is the history of the run, `w'.file` the content of `nlcg.json`.
`ops.Clean` says that the exceptions `SlopeError` and `DescentError` are raised by the line search
only; in the code they are raised nowhere else.
-/

namespace Nlcg
open Arith
variable {α σ ρ δ : Type} [Arith α]

/-! ## A small solver problem, for the examples

One coordinate `x` with energy `x^2`. -/

/-- Energy `x^2`, direction `-2x`, slope `-4x^2`; the state is the energy of the last point. -/
def toyOps (x0 : α) : Ops α α α α where
  construct s := (.ok (), s)
  setup _ := (.ok x0, x0 *ᶠ x0)
  restarted x s := (.ok (lit (-4) *ᶠ (x *ᶠ x), lit (-2) *ᶠ x), s)
  conjugated _ x _ s := (.ok (lit (-4) *ᶠ (x *ᶠ x), lit (-4) *ᶠ (x *ᶠ x), lit (-2) *ᶠ x), s)
  geo x d t _ := (.ok (x +ᶠ t *ᶠ d), (x +ᶠ t *ᶠ d) *ᶠ (x +ᶠ t *ᶠ d))
  refresh x s := (.ok x, s)
  gather _ s := (.ok (), s)
  hostPrint s := (.ok (), s)
  getF s := s
  getS _ := lit 0

/-- Energy rising in every direction: each search fails to find a lower point. -/
def badOps : Ops ℚ ℚ ℚ ℚ where
  construct s := (.ok (), s)
  setup _ := (.ok 0, 0)
  restarted _ s := (.ok (-1, 1), s)
  conjugated _ _ _ s := (.ok (-1, -1, 1), s)
  geo x d t _ := (.ok (x + t * d), x + t * d)
  refresh x s := (.ok x, s)
  gather _ s := (.ok (), s)
  hostPrint s := (.ok (), s)
  getF s := s
  getS _ := 0

def blank (s : α) : NState α α :=
  { s := s, file := [], info := { vals := none, converged := false }, force := false, trace := [] }

theorem toy_clean (x0 : α) : (toyOps x0).Clean := by
  constructor <;> intros <;> exact ⟨by simp [toyOps], by simp [toyOps]⟩

theorem toy_quiet (x0 : α) : (toyOps x0).Quiet := by
  constructor <;> intros <;> rfl

theorem toy_defined (x0 : α) : (toyOps x0).Defined := by
  constructor <;> intros <;> simp [toyOps]

theorem toy_reproducible (x0 : ℝ) : (toyOps x0).Reproducible fun x => x * x := by
  constructor <;> intros <;> simp_all [toyOps]
  · next h => rw [← h.2, ← h.1]
  · next h => rw [← h.2, ← h.1]

theorem bad_clean : badOps.Clean := by
  constructor <;> intros <;> exact ⟨by simp [badOps], by simp [badOps]⟩

/-- a run that converges in its second iteration -/
theorem toy_run : ∃ w', nlcg (toyOps (1 : ℚ)) { maxiter := 5, tol := 1 / 100, tau := 1 / 10, restart := 2 } 9 0
    (blank 7) = some (.ok { vals := some { tolerance := -1, F := 0, S := 0, iter := 1 }, converged := true }, w') ∧
    w'.trace = [.start 0 (-4), .report 0 1 0 (-4), .search 0 false, .found 0 false, .steepest 0 0,
      .start 1 0, .report 1 0 0 0] ∧
    w'.file = [{ step := 0, F := 1, entropy := 0, slope := -4, bands := true },
      { step := 1, F := 0, entropy := 0, slope := 0, bands := false }] :=
  ⟨{ s := 0
     file := [{ step := 0, F := 1, entropy := 0, slope := -4, bands := true },
       { step := 1, F := 0, entropy := 0, slope := 0, bands := false }]
     info := { vals := some { tolerance := -1, F := 0, S := 0, iter := 1 }, converged := true }
     force := false
     trace := [.start 0 (-4), .report 0 1 0 (-4), .search 0 false, .found 0 false, .steepest 0 0,
      .start 1 0, .report 1 0 0 0] }, by decide +kernel, rfl, rfl⟩

/-- a run that resets and then fails -/
theorem bad_run : ∃ w', nlcg badOps { maxiter := 5, tol := 1 / 100, tau := 1 / 1000, restart := 2 } 9 0
    (blank 7) = some (.ok { vals := some { tolerance := -2, F := 0, S := 0, iter := 1 }, converged := false }, w') ∧
    w'.trace = [.start 0 (-1), .report 0 0 0 (-1), .search 0 false, .found 0 true, .steepest 0 (-1),
      .start 1 (-1), .report 1 0 0 (-1), .search 1 true, .failed 1 .descentError] :=
  ⟨{ s := 1 / 5000000
     file := [{ step := 0, F := 0, entropy := 0, slope := -1, bands := true },
       { step := 1, F := 0, entropy := 0, slope := -1, bands := false }]
     info := { vals := some { tolerance := -2, F := 0, S := 0, iter := 1 }, converged := false }
     force := true
     trace := [.start 0 (-1), .report 0 0 0 (-1), .search 0 false, .found 0 true, .steepest 0 (-1),
      .start 1 (-1), .report 1 0 0 (-1), .search 1 true, .failed 1 .descentError] },
    by decide +kernel, rfl⟩

/-! ## The history of a run -/

/-- Every run that returns has a history that is legal according to `Spec.Trace`, and the record
says `converged` exactly if the history ends so. -/
theorem C31_history_is_legal (ops : Ops α σ ρ δ) (hc : ops.Clean) (prm : NlcgParams α)
    (fuel rank : Nat) (w w' : NState α σ) (info : Info α)
    (h : nlcg ops prm fuel rank w = some (.ok info, w')) :
    ∃ slope e, Spec.Trace prm.restart prm.tol prm.maxiter.toNat 0 slope false w'.trace e ∧
      (info.converged = true ↔ e = .converged) := by
  have hr := nlcg_run ops prm fuel rank w _ _ h
  generalize ho : (Res.ok info : Res (Info α)) = o at hr
  cases hr with
  | construct => exact absurd ho.symm (Res.fail_ne_ok _ _)
  | setup => exact absurd ho.symm (Res.fail_ne_ok _ _)
  | restarted => exact absurd ho.symm (Res.fail_ne_ok _ _)
  | loop s1 pt s2 slope dir s3 o w' h1 h2 h3 h4 =>
    obtain ⟨tr, e, e1, e2, e3, -⟩ := h4.trace hc rfl info ho.symm
    refine ⟨slope, e, ?_, e3⟩
    rw [e1]
    simpa using e2

/-- C31. After iteration `j` a steepest-descent direction is computed exactly if `restart` divides
`j`, or the line search asked for a reset, or the conjugated slope was positive; a conjugated
direction is computed exactly if neither of the first two holds. -/
theorem C31_restart_schedule (ops : Ops α σ ρ δ) (hc : ops.Clean) (prm : NlcgParams α)
    (fuel rank : Nat) (w w' : NState α σ) (info : Info α)
    (h : nlcg ops prm fuel rank w = some (.ok info, w')) (j : Nat) (reset : Bool)
    (hj : Ev.found j reset ∈ w'.trace) :
    ((∃ s, Ev.steepest j s ∈ w'.trace) ↔ (prm.restart ∣ (j : Int) ∨ reset = true ∨
      ∃ c, Ev.conjugate j c ∈ w'.trace ∧ (lit 0 <ᶠ c) = true)) ∧
    ((∃ c, Ev.conjugate j c ∈ w'.trace) ↔ (¬ prm.restart ∣ (j : Int) ∧ reset = false)) := by
  obtain ⟨slope, e, ht, -⟩ := C31_history_is_legal ops hc prm fuel rank w w' info h
  exact ht.schedule j reset hj

/-- C27. If the line search of iteration `j` fails for good, the run ends there without
convergence, and the previous iteration had reset or had rejected a conjugated direction. -/
theorem C27_second_failure_aborts (ops : Ops α σ ρ δ) (hc : ops.Clean) (prm : NlcgParams α)
    (fuel rank : Nat) (w w' : NState α σ) (info : Info α)
    (h : nlcg ops prm fuel rank w = some (.ok info, w')) (j : Nat)
    (hj : Ev.failed j .descentError ∈ w'.trace) :
    info.converged = false ∧ (∃ pre, w'.trace = pre ++ [.failed j .descentError]) ∧
    ∃ i, j = i + 1 ∧ (Ev.found i true ∈ w'.trace ∨
      ∃ c, Ev.conjugate i c ∈ w'.trace ∧ (lit 0 <ᶠ c) = true) := by
  obtain ⟨slope, e, ht, hconv⟩ := C31_history_is_legal ops hc prm fuel rank w w' info h
  obtain ⟨h1, h2, h3⟩ := ht.descentFailed_source j hj
  refine ⟨?_, h2, ?_⟩
  · rw [h1] at hconv
    simpa using hconv
  · rcases h3 with ⟨-, h3⟩ | h3
    · simp at h3
    · exact h3

/-- C27. The line search of iteration `j` is told to give up on failure exactly if the previous
iteration had reset or had rejected a conjugated direction. -/
theorem C27_when_failure_is_final (ops : Ops α σ ρ δ) (hc : ops.Clean) (prm : NlcgParams α)
    (fuel rank : Nat) (w w' : NState α σ) (info : Info α)
    (h : nlcg ops prm fuel rank w = some (.ok info, w')) (j : Nat) (flag : Bool)
    (hj : Ev.search j flag ∈ w'.trace) :
    flag = true ↔ ∃ i, j = i + 1 ∧ (Ev.found i true ∈ w'.trace ∨
      ∃ c, Ev.conjugate i c ∈ w'.trace ∧ (lit 0 <ᶠ c) = true) := by
  obtain ⟨slope, e, ht, -⟩ := C31_history_is_legal ops hc prm fuel rank w w' info h
  rcases ht.search_flag j flag hj with ⟨rfl, rfl⟩ | ⟨-, h1⟩
  · simp
  · exact h1

/-- C27. A reset is followed by a steepest-descent direction in the same iteration. -/
theorem C27_reset_then_steepest (ops : Ops α σ ρ δ) (hc : ops.Clean) (prm : NlcgParams α)
    (fuel rank : Nat) (w w' : NState α σ) (info : Info α)
    (h : nlcg ops prm fuel rank w = some (.ok info, w')) (j : Nat)
    (hj : Ev.found j true ∈ w'.trace) :
    (∃ s, Ev.steepest j s ∈ w'.trace) ∧ ∀ c, Ev.conjugate j c ∉ w'.trace := by
  obtain ⟨h1, h2⟩ := C31_restart_schedule ops hc prm fuel rank w w' info h j true hj
  refine ⟨h1.2 (Or.inr (Or.inl rfl)), fun c hcj => ?_⟩
  exact absurd (h2.1 ⟨c, hcj⟩).2 (by simp)

/-- C27, what the search itself does: if the quadratic step was refused and no step lowers the
energy, then with the flag up the search fails, and with the flag down it evaluates step 0,
returns that point and raises the flag. -/
theorem C27_reset_or_fail (env : LSEnv α σ ρ) (p : LSParams α) (fuel : Nat) (slope : α)
    (st stm st' : LSState α σ) (o : Res ρ) (htau : (lit 1 ≤ᶠ p.tau) = false)
    (hs : (lit 0 <ᶠ slope) = false)
    (hq : qline env p fuel slope st = some (.throw .stepError, stm))
    (hok : ∀ t s, ∃ r s', env.G t s = (.ok r, s'))
    (hhigh : ∀ t s, (env.getF (env.G t s).2 <ᶠ env.getF st.s) = false)
    (h : lineSearch env p fuel slope st = some (o, st')) :
    (st.forceRestart = true → o = .throw .descentError) ∧
    (st.forceRestart = false → ∃ r s0, o = .ok r ∧ env.G (lit 0) s0 = (.ok r, st'.s) ∧
      st'.forceRestart = true) := by
  have hfail : ∀ {o : Res ρ} s, ¬ FailedEval env o s := by
    rintro o s ⟨t, s0, ⟨e, -, hg⟩ | ⟨-, hg⟩ | ⟨-, hg⟩⟩ <;>
      (obtain ⟨r, s', hr⟩ := hok t s0; rw [hr] at hg; simp at hg)
  have hflag := qline_flag hq
  rcases lineSearch_inv env p fuel slope st st' _ h with ⟨h1, _⟩ | ⟨_, ⟨h1, h2⟩ | ⟨stm', h1, h2⟩⟩
  · rw [hs] at h1; simp at h1
  · rw [hq] at h1; cases h1; exact absurd rfl h2
  · rw [hq] at h1; cases h1
    rcases btSearch_spec env p fuel _ stm st' _ h2 with ⟨h3, -⟩ | ⟨_, k, stn, hk, hk2, hc⟩
    · rw [htau] at h3; simp at h3
    · rcases hc with ⟨r', hr, rfl, ⟨t, s0, rest, h4, -⟩, h5, -⟩ | ⟨-, h4, ⟨h5, h6, -⟩ | ⟨h5, h6⟩⟩ | ⟨-, -, -, h5⟩
      · have := hhigh t s0
        rw [h4] at this
        rw [this] at h5; simp at h5
      · rw [hflag] at h5
        exact ⟨fun _ => h6, fun h => absurd (h5 ▸ h) (by simp)⟩
      · rw [hflag] at h5
        obtain ⟨g1, g2, g3⟩ := evalG_ok h6
        refine ⟨fun h => absurd (h5 ▸ h) (by simp), fun _ => ?_⟩
        obtain ⟨r, s', hr⟩ := hok (lit 0) stn.s
        have g1' : env.G (lit 0) stn.s = (o, st'.s) := g1
        rw [hr] at g1'
        cases g1'
        exact ⟨r, stn.s, rfl, hr, g3⟩
      · exact absurd h5 (hfail _)

/-- C27, C31: the hypotheses are met by runs with a reset, a failure, a restart. -/
example : ∃ w' info, nlcg badOps { maxiter := 5, tol := 1 / 100, tau := 1 / 1000, restart := 2 } 9 0
    (blank 7) = some (.ok info, w') ∧ Ev.found 0 true ∈ w'.trace ∧ Ev.failed 1 .descentError ∈ w'.trace ∧
    Ev.search 1 true ∈ w'.trace := by
  obtain ⟨w', h, ht⟩ := bad_run
  exact ⟨w', _, h, by rw [ht]; decide, by rw [ht]; decide, by rw [ht]; decide⟩

example : let env : LSEnv ℚ ℚ ℚ := { G := fun t _ => (.ok t, t ^ 2), getF := id }
    ∃ stm, qline env { tTrial := 1 / 5, tau := 1 / 10 } 9 (-1)
      { s := 0, forceRestart := false, evals := [] } = some (.throw .stepError, stm) ∧
    (∀ t s, ∃ r s', env.G t s = (.ok r, s')) ∧
    ∀ t s, (env.getF (env.G t s).2 <ᶠ (0 : ℚ)) = false := by
  refine ⟨{ s := 1 / 144, forceRestart := false, evals := [1 / 12, 1 / 5] }, by decide +kernel, fun t s => ⟨t, _, rfl⟩, fun t s => ?_⟩
  show decide (t ^ 2 < 0) = false
  simp only [decide_eq_false_iff_not, not_lt]
  exact sq_nonneg t

/-! ## C28 -/

/-- C28. The record says `converged` if and only if some iteration started with `|slope| < tol`. -/
theorem C28_converged_iff (ops : Ops α σ ρ δ) (hc : ops.Clean) (prm : NlcgParams α)
    (fuel rank : Nat) (w w' : NState α σ) (info : Info α)
    (h : nlcg ops prm fuel rank w = some (.ok info, w')) :
    info.converged = true ↔
      ∃ i s, Ev.start i s ∈ w'.trace ∧ (i : Int) < prm.maxiter ∧ (Arith.abs s <ᶠ prm.tol) = true := by
  obtain ⟨slope, e, ht, hconv⟩ := C31_history_is_legal ops hc prm fuel rank w w' info h
  rw [hconv, ht.converged_iff]
  constructor
  · rintro ⟨i, s, h1, h2⟩
    have := (ht.iter_ge _ h1).2
    simp only [Spec.evIter] at this
    exact ⟨i, s, h1, by omega, h2⟩
  · rintro ⟨i, s, h1, -, h2⟩
    exact ⟨i, s, h1, h2⟩

theorem nlcg_record (ops : Ops α σ ρ δ) (hc : ops.Clean) (hq : ops.Quiet) (prm : NlcgParams α)
    (fuel rank : Nat) (w w' : NState α σ) (info : Info α) (hm : 1 ≤ prm.maxiter)
    (h : nlcg ops prm fuel rank w = some (.ok info, w')) :
    ∃ vals slope, info.vals = some vals ∧ (vals.iter : Int) < prm.maxiter ∧
      Ev.start vals.iter slope ∈ w'.trace ∧ vals.tolerance = slope +ᶠ lit (-1) ∧
      (vals.iter, vals.F, vals.S, slope) ∈ Spec.reports w'.trace ∧
      (info.converged = true → (Arith.abs slope <ᶠ prm.tol) = true ∧
        vals.F = ops.getF w'.s ∧ vals.S = ops.getS w'.s) ∧
      (∀ j, Ev.failed j .slopeError ∈ w'.trace →
        vals.F = ops.getF w'.s ∧ vals.S = ops.getS w'.s) := by
  have hr := nlcg_run ops prm fuel rank w _ _ h
  generalize ho : (Res.ok info : Res (Info α)) = o at hr
  cases hr with
  | construct => exact absurd ho.symm (Res.fail_ne_ok _ _)
  | setup => exact absurd ho.symm (Res.fail_ne_ok _ _)
  | restarted => exact absurd ho.symm (Res.fail_ne_ok _ _)
  | loop s1 pt s2 slope dir s3 o w' h1 h2 h3 h4 =>
    obtain ⟨-, h5⟩ := h4.record hc hq info ho.symm
    obtain ⟨vals, slope, e1, e2, e3, e4, e5, e6, e7, e8⟩ := h5 (by omega)
    exact ⟨vals, slope, e1, by omega, e4, e5, e6, e7, fun j hj => e8 j (by simp) hj⟩

/-- C28. A converged record carries the free energy and entropy term of the state left in the
backend and the iteration in which the criterion was met, provided printing and gathering leave
those energies alone. -/
theorem C28_converged_record (ops : Ops α σ ρ δ) (hc : ops.Clean) (hq : ops.Quiet)
    (prm : NlcgParams α) (fuel rank : Nat) (w w' : NState α σ) (info : Info α)
    (h : nlcg ops prm fuel rank w = some (.ok info, w')) (hcv : info.converged = true) :
    ∃ vals slope, info.vals = some vals ∧ vals.F = ops.getF w'.s ∧ vals.S = ops.getS w'.s ∧
      (vals.iter : Int) < prm.maxiter ∧ Ev.start vals.iter slope ∈ w'.trace ∧
      (Arith.abs slope <ᶠ prm.tol) = true := by
  obtain ⟨i, s, -, hi, -⟩ := (C28_converged_iff ops hc prm fuel rank w w' info h).1 hcv
  obtain ⟨vals, slope, e1, e2, e3, e4, e5, e6, e7⟩ :=
    nlcg_record ops hc hq prm fuel rank w w' info (by omega) h
  exact ⟨vals, slope, e1, (e6 hcv).2.1, (e6 hcv).2.2, e2, e3, (e6 hcv).1⟩

example : ∃ w' info, nlcg (toyOps (1 : ℚ)) { maxiter := 5, tol := 1 / 100, tau := 1 / 10, restart := 2 } 9 0
    (blank 7) = some (.ok info, w') ∧ info.converged = true := by
  obtain ⟨w', h, -⟩ := toy_run
  exact ⟨w', _, h, rfl⟩

/-! ## C29 -/

/-- C29. If re-evaluating the current point reproduces its energy, the reported free energies form
a non-increasing sequence that starts at or below the energy of the initial point, however the run
ends. -/
theorem C29_energies_do_not_increase (ops : Ops ℝ σ ρ δ) (E : ρ → ℝ) (hE : ops.Reproducible E)
    (prm : NlcgParams ℝ) (fuel rank : Nat) (w w' : NState ℝ σ) (o : Res (Info ℝ))
    (h : nlcg ops prm fuel rank w = some (o, w')) :
    ((Spec.reports w'.trace).map (·.2.1)).Pairwise (· ≥ ·) ∧
    ∀ x ∈ Spec.reports w'.trace, ∃ s s' pt, ops.construct w.s = (.ok (), s) ∧
      ops.setup s = (.ok pt, s') ∧ x.2.1 ≤ E pt := by
  cases nlcg_run ops prm fuel rank w _ _ h with
  | construct => exact ⟨List.Pairwise.nil, by simp [Spec.reports]⟩
  | setup => exact ⟨List.Pairwise.nil, by simp [Spec.reports]⟩
  | restarted => exact ⟨List.Pairwise.nil, by simp [Spec.reports]⟩
  | loop s1 pt s2 slope dir s3 o w' h1 h2 h3 h4 =>
    have hF : ops.getF s3 = E pt := by
      have := hE.restarted pt s2
      rw [h3] at this
      exact this.trans (hE.setup _ _ _ h2)
    obtain ⟨new, e1, e2, e3⟩ := h4.energies hE hF
    simp only [Spec.reports, List.nil_append] at e1
    rw [e1]
    refine ⟨e3, fun x hx => ⟨s1, s2, pt, h1, h2, ?_⟩⟩
    have := e2 x hx
    simp only at this
    rw [← hF]; exact this

example (x0 : ℝ) : ∃ E, (toyOps x0).Reproducible E := ⟨_, toy_reproducible x0⟩

/-- the hypothesis is needed: if evaluating step 0 gives another energy, a reset can raise the
reported energy -/
theorem C29_needs_reproducible_energy :
    ∃ (ops : Ops ℚ ℚ ℚ ℚ) (prm : NlcgParams ℚ),
      (nlcg ops prm 9 0 (blank 7)).map (fun r => (Spec.reports r.2.trace).map (·.2.1)) =
        some [0, 1] :=
  ⟨{ badOps with geo := fun x d t _ => (.ok (x + t * d), x + t * d + 1) },
    { maxiter := 2, tol := 1 / 100, tau := 1 / 1000, restart := 2 }, by decide +kernel⟩

/-! ## C30 -/

/-- C30. However a run ends, it has entered at most `maxiter` line searches. -/
theorem C30_at_most_maxiter_searches (ops : Ops α σ ρ δ) (prm : NlcgParams α) (fuel rank : Nat)
    (w w' : NState α σ) (o : Res (Info α)) (h : nlcg ops prm fuel rank w = some (o, w')) :
    (Spec.searches w'.trace).length ≤ prm.maxiter.toNat := by
  cases nlcg_run ops prm fuel rank w _ _ h with
  | construct => simp [Spec.searches]
  | setup => simp [Spec.searches]
  | restarted => simp [Spec.searches]
  | loop s1 pt s2 slope dir s3 o w' h1 h2 h3 h4 =>
    have := h4.searches_le
    simpa [Spec.searches] using this

/-- C30. The iteration number in the record is below `maxiter`. -/
theorem C30_reported_iteration (ops : Ops α σ ρ δ) (hc : ops.Clean) (hq : ops.Quiet)
    (prm : NlcgParams α) (hm : 1 ≤ prm.maxiter) (fuel rank : Nat) (w w' : NState α σ) (info : Info α)
    (h : nlcg ops prm fuel rank w = some (.ok info, w')) :
    ∃ vals, info.vals = some vals ∧ (vals.iter : Int) < prm.maxiter := by
  obtain ⟨vals, slope, e1, e2, -⟩ := nlcg_record ops hc hq prm fuel rank w w' info hm h
  exact ⟨vals, e1, e2⟩

/-- C30. If every line search ends, the run ends. -/
theorem C30_run_ends (ops : Ops α σ ρ δ) (prm : NlcgParams α) (fuel rank : Nat) (w : NState α σ)
    (h : ∀ pt dir slope st, lineSearch { G := ops.geo pt dir, getF := ops.getF }
      { tTrial := lit (2 / 10), tau := prm.tau } fuel slope st ≠ none) :
    nlcg ops prm fuel rank w ≠ none :=
  nlcg_ne_none ops prm fuel rank (fun _ _ => True) w (fun _ _ _ _ _ _ _ _ _ => trivial)
    (fun _ _ _ _ _ _ _ _ => trivial) (fun _ _ _ _ _ _ _ _ _ _ => h _ _ _ _)

/-- C30 in exact arithmetic: with `tol > 0`, an energy that is bounded below and reproducible, a
run ends, whatever `tau`, `restart` and `maxiter` are. -/
theorem C30_run_ends_bounded_energy (ops : Ops ℝ σ ρ δ) (E : ρ → ℝ) (hE : ops.Reproducible E) (L : ℝ)
    (hL : ∀ r, L ≤ E r) (prm : NlcgParams ℝ) (htol : 0 < prm.tol) (w : NState ℝ σ) :
    ∃ N, ∀ fuel ≥ N, ∀ rank, nlcg ops prm fuel rank w ≠ none := by
  -- energy of the first point
  let U := ops.getF (ops.setup (ops.construct w.s).2).2
  obtain ⟨n, hn⟩ := pow_unbounded_of_one_lt ((U - L) / prm.tol / (2 / 10)) (show (1 : ℝ) < 5 by norm_num)
  have hbt : ∃ m, ∀ fuel ≥ m, ∀ (env : LSEnv ℝ σ ρ) (F0 : ℝ) (st : LSState ℝ σ),
      btSearch env { tTrial := lit (2 / 10), tau := prm.tau } fuel F0 st ≠ none := by
    by_cases ht : prm.tau < 1
    · obtain ⟨m, hm⟩ := exists_small_step (lit (2 / 10)) prm.tau ht
      exact ⟨m, fun fuel hf env F0 st => btSearch_ne_none env _ F0 m fuel hf hm st⟩
    · refine ⟨0, fun fuel _ env F0 st => ?_⟩
      rw [btSearch, if_pos (by simpa using ht)]
      simp
  obtain ⟨m, hm⟩ := hbt
  refine ⟨max (n + 1) m, fun fuel hf rank => ?_⟩
  refine nlcg_ne_none ops prm fuel rank (fun v w => ops.getF w.s = E v.pt ∧ ops.getF w.s ≤ U) w ?_ ?_ ?_
  · intro s1 pt s2 slope dir s3 h1 h2 h3
    have a := hE.restarted pt s2
    rw [h3] at a
    have hU : U = ops.getF s2 := by simp only [U]; rw [h1]; simp only; rw [h2]
    exact ⟨a.trans (hE.setup _ _ _ h2), by rw [hU]; exact a.le⟩
  · rintro i v w v' w1 ⟨p1, p2⟩ - hb
    obtain ⟨e1, e2⟩ := hb.energy hE (w := started i v.slope w) p1
    exact ⟨e1, e2.trans p2⟩
  · rintro i v w s1 s2 file' ⟨p1, p2⟩ ht hj hp
    by_cases hs : 0 < v.slope
    · rw [lineSearch, if_pos (by simpa using hs)]
      simp
    · push Not at hs
      have hsl : v.slope ≤ -prm.tol := by
        simp only [real_abs, real_lt, decide_eq_false_iff_not, not_lt] at ht
        rw [abs_of_nonpos hs] at ht
        linarith
      refine lineSearch_ne_none _ _ _ _ _ ?_ (fun st' => hm fuel (by omega) _ _ _)
      refine qline_ne_none _ _ _ n fuel (by omega) _ ?_
      intro t' s0 r s hG
      have hF : ops.getF s2 ≤ U := by
        have a := hE.hostPrint s1
        rw [hp] at a
        have b := hj.getF hE
        simp only [started] at b a
        rw [a, b]
        exact p2
      have h5 : nthStep (lit (2 / 10) : ℝ) (lit 5) n = 2 / 10 * 5 ^ n := by
        rw [nthStep_real]; simp
      rw [h5]
      rw [div_lt_iff₀ (by norm_num), div_lt_iff₀ htol] at hn
      simp only [qCurv, real_lt, real_div, real_sub, real_mul, real_lit, decide_eq_false_iff_not, not_lt]
      push_cast
      apply div_nonneg
      · have := hL r
        rw [← hE.geo _ _ _ _ _ _ hG] at this
        have h6 : (0 : ℝ) < 5 ^ n := by positivity
        nlinarith
      · positivity

example (x0 : ℝ) : (toyOps x0).Reproducible (fun x => x * x) ∧
    ∀ x : ℝ, 0 ≤ x * x := ⟨toy_reproducible x0, fun x => mul_self_nonneg x⟩

/-! ## C32 -/

/-- C32 holds for `maxiter >= 1` and `restart != 0`: a run that ends normally returns a fully
initialised record, and undefined behaviour occurs only if something called by the driver has it.
Missing for the full statement: `restart = 0` and `maxiter <= 0`, for which it is false
(`C32_restart_zero_undefined`, `C32_maxiter_nonpositive_uninitialised`). -/
theorem C32_defined_partial (ops : Ops α σ ρ δ) (hc : ops.Clean) (hq : ops.Quiet) (hd : ops.Defined)
    (prm : NlcgParams α) (hm : 1 ≤ prm.maxiter) (hr : prm.restart ≠ 0) (fuel rank : Nat)
    (w w' : NState α σ) (o : Res (Info α)) (h : nlcg ops prm fuel rank w = some (o, w')) :
    o ≠ .ub ∧ ∀ info, o = .ok info → info.vals.isSome = true := by
  refine ⟨?_, ?_⟩
  · cases nlcg_run ops prm fuel rank w _ _ h with
    | construct o s1 h1 h2 =>
      refine Res.fail_ne_ub h2 ?_
      have := hd.construct w.s; rw [h1] at this; exact this
    | setup s1 o s2 h1 h2 h3 =>
      refine Res.fail_ne_ub h3 ?_
      have := hd.setup s1; rw [h2] at this; exact this
    | restarted s1 pt s2 o s3 h1 h2 h3 h4 =>
      refine Res.fail_ne_ub h4 ?_
      have := hd.restarted pt s2; rw [h3] at this; exact this
    | loop s1 pt s2 slope dir s3 o w' h1 h2 h3 h4 => exact h4.ne_ub hd hr
  · rintro info rfl
    obtain ⟨vals, slope, e1, -⟩ := nlcg_record ops hc hq prm fuel rank w w' info hm h
    simp [e1]

/-- C32 is false for `restart = 0`: the first completed iteration computes `cg_iter % 0`. -/
theorem C32_restart_zero_undefined :
    (nlcg (toyOps (1 : ℚ)) { maxiter := 5, tol := 1 / 100, tau := 1 / 10, restart := 0 } 9 0 (blank 7)).map
      (·.1) = some .ub := by
  decide +kernel

/-- C32 is false for `maxiter <= 0`: every run that returns then returns an uninitialised record. -/
theorem C32_maxiter_nonpositive_uninitialised (ops : Ops α σ ρ δ) (hc : ops.Clean) (hq : ops.Quiet)
    (prm : NlcgParams α) (hm : prm.maxiter ≤ 0) (fuel rank : Nat) (w w' : NState α σ) (info : Info α)
    (h : nlcg ops prm fuel rank w = some (.ok info, w')) : info.vals = none := by
  have hr := nlcg_run ops prm fuel rank w _ _ h
  generalize ho : (Res.ok info : Res (Info α)) = o at hr
  cases hr with
  | construct => exact absurd ho.symm (Res.fail_ne_ok _ _)
  | setup => exact absurd ho.symm (Res.fail_ne_ok _ _)
  | restarted => exact absurd ho.symm (Res.fail_ne_ok _ _)
  | loop s1 pt s2 slope dir s3 o w' h1 h2 h3 h4 =>
    rw [(h4.record hc hq info ho.symm).1 (by omega)]

example : (toyOps (1 : ℚ)).Clean ∧ (toyOps (1 : ℚ)).Quiet ∧ (toyOps (1 : ℚ)).Defined ∧
    (nlcg (toyOps (1 : ℚ)) { maxiter := 0, tol := 1 / 100, tau := 1 / 10, restart := 1 } 9 0 (blank 7)).map
      (·.1) = some (.ok { vals := none, converged := false }) :=
  ⟨toy_clean _, toy_quiet _, toy_defined _, by decide +kernel⟩

/-! ## C33, C34 -/

/-- C33 holds for runs that end by convergence or by a positive slope. Missing for the full
statement: runs that end by the iteration limit or by a failed line search, for which it is false
(`C33_not_at_iteration_limit`, `C33_not_after_failed_search`). -/
theorem C33_record_matches_backend_partial (ops : Ops α σ ρ δ) (hc : ops.Clean) (hq : ops.Quiet)
    (prm : NlcgParams α) (hm : 1 ≤ prm.maxiter) (fuel rank : Nat) (w w' : NState α σ) (info : Info α)
    (h : nlcg ops prm fuel rank w = some (.ok info, w'))
    (hend : info.converged = true ∨ ∃ j, Ev.failed j .slopeError ∈ w'.trace) :
    ∃ vals, info.vals = some vals ∧ vals.F = ops.getF w'.s ∧ vals.S = ops.getS w'.s := by
  obtain ⟨vals, slope, e1, -, -, -, -, e6, e7⟩ := nlcg_record ops hc hq prm fuel rank w w' info hm h
  rcases hend with hcv | ⟨j, hj⟩
  · exact ⟨vals, e1, (e6 hcv).2⟩
  · exact ⟨vals, e1, e7 j hj⟩

/-- C33 is false at the iteration limit: the record has the energy 1 of the first point although
the line search has moved the backend to energy 0. -/
theorem C33_not_at_iteration_limit :
    (nlcg (toyOps (1 : ℚ)) { maxiter := 1, tol := 1 / 100, tau := 1 / 10, restart := 2 } 9 0 (blank 7)).map
      (fun r => (r.1, (toyOps (1 : ℚ)).getF r.2.s)) =
    some (.ok { vals := some { tolerance := -5, F := 1, S := 0, iter := 0 }, converged := false }, 0) := by
  decide +kernel

/-- C33 is false after a failed search: the backend is left at the last trial point. -/
theorem C33_not_after_failed_search :
    (nlcg badOps { maxiter := 5, tol := 1 / 100, tau := 1 / 1000, restart := 2 } 9 0 (blank 7)).map
      (fun r => (r.1, badOps.getF r.2.s)) =
    some (.ok { vals := some { tolerance := -2, F := 0, S := 0, iter := 1 }, converged := false },
      1 / 5000000) := by
  decide +kernel

/-- C34 is false: in every run that returns, the tolerance in the record is not the slope of the
iteration it belongs to; it is smaller by 1. -/
theorem C34_tolerance_is_not_the_slope (ops : Ops ℝ σ ρ δ) (hc : ops.Clean) (hq : ops.Quiet)
    (prm : NlcgParams ℝ) (hm : 1 ≤ prm.maxiter) (fuel rank : Nat) (w w' : NState ℝ σ) (info : Info ℝ)
    (h : nlcg ops prm fuel rank w = some (.ok info, w')) :
    ∃ vals slope, info.vals = some vals ∧ (vals.iter, vals.F, vals.S, slope) ∈ Spec.reports w'.trace ∧
      vals.tolerance = slope - 1 ∧ vals.tolerance ≠ slope := by
  obtain ⟨vals, slope, e1, -, -, e4, e5, -⟩ := nlcg_record ops hc hq prm fuel rank w w' info hm h
  have : vals.tolerance = slope - 1 := by rw [e4]; simp; ring
  exact ⟨vals, slope, e1, e5, this, by rw [this]; linarith⟩

/-- C34, what does hold in any arithmetic: the tolerance is `slope + (-1)` for the slope that was
compared with `tol` in the reported iteration. Missing: equality with the slope, which is false
(`C34_tolerance_is_not_the_slope`). -/
theorem C34_tolerance_partial (ops : Ops α σ ρ δ) (hc : ops.Clean) (hq : ops.Quiet)
    (prm : NlcgParams α) (hm : 1 ≤ prm.maxiter) (fuel rank : Nat) (w w' : NState α σ) (info : Info α)
    (h : nlcg ops prm fuel rank w = some (.ok info, w')) :
    ∃ vals slope, info.vals = some vals ∧ Ev.start vals.iter slope ∈ w'.trace ∧
      vals.tolerance = slope +ᶠ lit (-1) := by
  obtain ⟨vals, slope, e1, -, e3, e4, -⟩ := nlcg_record ops hc hq prm fuel rank w w' info hm h
  exact ⟨vals, slope, e1, e3, e4⟩

/-! ## C35 -/

/-- C35. However the run ends, once the old file is removed: on rank 0 the step log holds exactly
one record per started iteration, numbered `0, 1, 2, ...` in order, with the slope the iteration
started with; band data only in records whose number is a multiple of 10, and in all of those if
the gathers do not fail. Other ranks write nothing. -/
theorem C35_step_log (ops : Ops α σ ρ δ) (prm : NlcgParams α) (fuel rank : Nat)
    (w w' : NState α σ) (o : Res (Info α)) (h : nlcg ops prm fuel rank w = some (o, w'))
    (hcons : (ops.construct w.s).1 = .ok ()) :
    ∃ k ≤ prm.maxiter.toNat, (Spec.starts w'.trace).map (·.1) = List.range k ∧
      (rank ≠ 0 → w'.file = []) ∧
      (rank = 0 →
        w'.file.map (fun r => (r.step, r.slope)) = Spec.starts w'.trace ∧
        (∀ r ∈ w'.file, r.bands = true → 10 ∣ r.step) ∧
        ((∀ pt s, (ops.gather pt s).1 = .ok ()) → ∀ r ∈ w'.file, (r.bands = true ↔ 10 ∣ r.step))) := by
  cases nlcg_run ops prm fuel rank w _ _ h with
  | construct o s1 h1 h2 => rw [h1] at hcons; simp only at hcons; subst hcons; simp [Res.isOk] at h2
  | setup => exact ⟨0, by simp, by simp [Spec.starts], by simp, by simp [Spec.starts]⟩
  | restarted => exact ⟨0, by simp, by simp [Spec.starts], by simp, by simp [Spec.starts]⟩
  | loop s1 pt s2 slope dir s3 o w' h1 h2 h3 h4 =>
    obtain ⟨k, new, st, e1, e2, e3, e4, e5⟩ := h4.file
    simp only [Spec.starts, List.nil_append] at e2 e5
    refine ⟨k, e1, by rw [e2, e3, List.range_eq_range'], e4, fun hr => ?_⟩
    obtain ⟨c1, c2, c3, c4⟩ := e5 hr
    rw [c1, e2]
    refine ⟨c2, fun r hm hb => Nat.dvd_of_mod_eq_zero (c3 r hm hb), fun hg r hm => ?_⟩
    rw [c4 hg r hm, Nat.dvd_iff_mod_eq_zero]

/-- C35. In a run that returns, the rank-0 records are exactly what was reported: same iterations,
free energies, entropy terms and slopes. -/
theorem C35_log_is_what_was_reported (ops : Ops α σ ρ δ) (hc : ops.Clean) (hq : ops.Quiet)
    (prm : NlcgParams α) (fuel : Nat) (w w' : NState α σ) (info : Info α)
    (h : nlcg ops prm fuel 0 w = some (.ok info, w')) :
    w'.file.map (fun r => (r.step, r.F, r.entropy, r.slope)) = Spec.reports w'.trace := by
  have hr := nlcg_run ops prm fuel 0 w _ _ h
  generalize ho : (Res.ok info : Res (Info α)) = o at hr
  cases hr with
  | construct => exact absurd ho.symm (Res.fail_ne_ok _ _)
  | setup => exact absurd ho.symm (Res.fail_ne_ok _ _)
  | restarted => exact absurd ho.symm (Res.fail_ne_ok _ _)
  | loop s1 pt s2 slope dir s3 o w' h1 h2 h3 h4 =>
    exact h4.log_eq_reports hc hq rfl info ho.symm

example : ∃ w' o, nlcg (toyOps (1 : ℚ)) { maxiter := 5, tol := 1 / 100, tau := 1 / 10, restart := 2 } 9 0
    (blank 7) = some (o, w') ∧ w'.file.length = 2 := by
  obtain ⟨w', h, -, hf⟩ := toy_run
  exact ⟨w', _, h, by rw [hf]; rfl⟩

end Nlcg
