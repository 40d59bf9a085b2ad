import Verif.Proofs.NaN
import Verif.Props.Driver
import Verif.Model.ArithOverflow

/-!
# C83: a free energy that is not a number is noticed

`Spec.NaNLaws bad`: `bad` numbers are NaNs, as in IEEE 754. Otherwise the arithmetic is arbitrary.
-/

namespace Nlcg
open Arith Spec
variable {α σ ρ δ : Type} [Arith α] {bad : α → Prop}

/-- **C83**, what holds: a run never reports success for a residual that is not a number. -/
theorem C83_success_is_a_number_partial (hn : NaNLaws bad) (ops : Ops α σ ρ δ) (hc : ops.Clean) (hq : ops.Quiet)
    (prm : NlcgParams α) (fuel rank : Nat) (w w' : NState α σ) (info : Info α)
    (h : nlcg ops prm fuel rank w = some (.ok info, w')) (hcv : info.converged = true) :
    ∃ vals slope, info.vals = some vals ∧ Ev.start vals.iter slope ∈ w'.trace ∧ ¬ bad slope ∧ ¬ bad prm.tol := by
  obtain ⟨vals, slope, h1, -, -, -, h2, h3⟩ := C28_converged_record ops hc hq prm fuel rank w w' info h hcv
  refine ⟨vals, slope, h1, h2, fun hb => ?_, fun hb => ?_⟩
  · rw [hn.lt_left _ _ (hn.abs _ hb)] at h3; simp at h3
  · rw [hn.lt_right _ _ hb] at h3; simp at h3

/-- **C83**, what holds: backtracking takes no step to an energy that is not a number, nor from one. What it
returns is such a step, or the point at step 0. -/
theorem C83_backtracking_partial (hn : NaNLaws bad) (env : LSEnv α σ ρ) (p : LSParams α) (fuel : Nat) (F0 : α)
    (st st' : LSState α σ) (r : ρ) (h : btSearch env p fuel F0 st = some (.ok r, st')) :
    (¬ bad (env.getF st'.s) ∧ ¬ bad F0) ∨
    (st'.forceRestart = true ∧ ∃ rest, st'.evals = lit 0 :: rest) := by
  rcases btSearch_spec env p fuel _ st st' _ h with ⟨_, h3, _⟩ | ⟨_, k, stn, hk, hk2, hc⟩
  · simp at h3
  · rcases hc with ⟨r', hr, rfl, h4, h5, -⟩ | ⟨-, h4, ⟨-, h5, -⟩ | ⟨h5, h6⟩⟩ | ⟨-, -, h5, -⟩
    · refine Or.inl ⟨fun hb => ?_, fun hb => ?_⟩
      · rw [hn.lt_left _ _ hb] at h5; simp at h5
      · rw [hn.lt_right _ _ hb] at h5; simp at h5
    · simp at h5
    · obtain ⟨-, g2, g3⟩ := evalG_ok h6
      exact Or.inr ⟨g3, stn.evals, g2⟩
    · exact absurd rfl (h5 r)

/-- **C83** is false of the quadratic search. If the energy at the start or at the trial step is not a number, it
evaluates exactly one more point, at a step that is not a number, and takes it: the search reports success, with
the restart flag lowered, at a point whose energy is not a number. Backtracking is not tried. -/
theorem C83_not_in_search (hn : NaNLaws bad) (env : LSEnv α σ ρ) (p : LSParams α) (fuel : Nat) (slope : α)
    (st : LSState α σ) (hs : (lit 0 <ᶠ slope) = false) (hG : Absorbs bad env.G env.getF)
    (hok : ∀ t s, ∃ r s', env.G t s = (.ok r, s'))
    (hb : bad (env.getF st.s) ∨ bad (env.getF (env.G p.tTrial st.s).2)) :
    ∃ r st' t, lineSearch env p (fuel + 1) slope st = some (.ok r, st') ∧ st'.evals = t :: p.tTrial :: st.evals ∧
      bad t ∧ bad (env.getF st'.s) ∧ st'.forceRestart = false := by
  obtain ⟨r1, s1, h1⟩ := hok p.tTrial st.s
  rw [h1] at hb
  have ht := qMin_bad hn (slope := slope) (qCurv_bad hn (slope := slope) (t := p.tTrial) hb)
  obtain ⟨r2, s2, h2⟩ := hok (qMin slope (qCurv (env.getF st.s) slope (env.getF s1) p.tTrial)) s1
  have hF := hG _ _ _ _ ht h2
  exact ⟨r2, _, _, lineSearch_bad_eq hn env p fuel slope st hs h1 hb h2 (hn.lt_right _ _ hF), rfl, ht, hF, rfl⟩

/-- **C83**: nor does the run recover. Once a reported free energy is not a number, all later ones are not, however
the run ends. -/
theorem C83_never_recovers (hn : NaNLaws bad) (ops : Ops α σ ρ δ) (hk : KeepsEnergy ops)
    (hG : ∀ pt dir, Absorbs bad (ops.geo pt dir) ops.getF)
    (hst : ∀ pt dir t s, (ops.geo pt dir t s).1 ≠ .throw .stepError)
    (prm : NlcgParams α) (fuel rank : Nat) (w w' : NState α σ) (o : Res (Info α))
    (h : nlcg ops prm fuel rank w = some (o, w')) :
    (reports w'.trace).Pairwise fun x y => bad x.2.1 → bad y.2.1 := by
  cases nlcg_run ops prm fuel rank w _ _ h with
  | construct => exact List.Pairwise.nil
  | setup => exact List.Pairwise.nil
  | restarted => exact List.Pairwise.nil
  | loop s1 pt s2 slope dir s3 o w' h1 h2 h3 h4 =>
    obtain ⟨new, e1, -, e3⟩ := h4.stays_bad hn hk hG hst
    simp only [Spec.reports, List.nil_append] at e1
    rw [e1]
    exact e3

/-! ## Concrete cases -/

theorem ov_nan_laws : NaNLaws (fun x : Ov => x = .nan) where
  lt_left := by rintro _ b rfl; rcases b with q | _ | _ <;> rfl
  lt_right := by rintro a _ rfl; rcases a with q | (_ | _) | _ <;> rfl
  sub_left := by rintro _ b rfl; rcases b with q | _ | _ <;> rfl
  sub_right := by rintro a _ rfl; rcases a with q | _ | _ <;> rfl
  mul_right := by rintro a _ rfl; rcases a with q | _ | _ <;> rfl
  div_left := by rintro _ b rfl; rcases b with q | _ | _ <;> rfl
  div_right := by rintro a _ rfl; rcases a with q | _ | _ <;> rfl
  abs := by rintro _ rfl; rfl

/-- The energy `|x|`, a number at every finite `x`, and its slope. -/
def absOps : Ops Ov Ov Ov Ov where
  construct s := (.ok (), s)
  setup _ := (.ok (.num 1), .num 1)
  restarted x s := match x with
    | .num q => (.ok (.num (-1), if 0 < q then .num (-1) else .num 1), s)
    | _ => (.ok (.nan, .nan), s)
  conjugated _ x _ s := match x with
    | .num q => (.ok (.num (-1), .num (-1), if 0 < q then .num (-1) else .num 1), s)
    | _ => (.ok (.nan, .nan, .nan), s)
  geo x d t _ := (.ok (x +ᶠ t *ᶠ d), match x +ᶠ t *ᶠ d with | .num q => .num |q| | _ => .nan)
  refresh x s := (.ok x, s)
  gather _ s := (.ok (), s)
  hostPrint s := (.ok (), s)
  getF s := s
  getS _ := .num 0

/-- **C83** is false of whole runs, although the energy is a number at every finite point: the three values seen
by the first search lie on a straight line, the minimum of the parabola is at infinity, where the energy is not a
number; the point is accepted, and the run goes on from there until the iteration limit and returns. -/
theorem C83_not_in_run :
    (∀ (x d t : Ov) (s : Ov) (q : ℚ), x +ᶠ t *ᶠ d = .num q → absOps.getF (absOps.geo x d t s).2 = .num |q|) ∧
    (nlcg absOps { maxiter := 4, tol := .num (1 / 100), tau := .num (1 / 10), restart := 2 } 9 0 (blank (.num 7))).map
      (fun r => (r.1, (reports r.2.trace).map (·.2.1))) =
      some (.ok { vals := some { tolerance := .nan, F := .nan, S := .num 0, iter := 3 }, converged := false },
        [.num 1, .nan, .nan, .nan]) := by
  refine ⟨fun x d t s q h => ?_, by decide +kernel⟩
  simp only [absOps, h]

/-- the first search could have done better: the trial step lowers the energy -/
example : ((.num (4 / 5) : Ov) <ᶠ .num 1) = true := by decide +kernel

example : KeepsEnergy absOps := by
  constructor
  · intro r s; rfl
  · intro pt s; rcases pt with q | _ | _ <;> rfl
  · intro fr pt dir s; rcases pt with q | _ | _ <;> rfl
  · intro pt s; rfl
  · intro s; rfl

example (pt dir : Ov) : Absorbs (fun x : Ov => x = .nan) (absOps.geo pt dir) absOps.getF := by
  rintro _ s r s' rfl h
  rcases pt with q | _ | _ <;> simp [absOps, Arith.mul, Ov.mul, Arith.add, Ov.add] at h <;> simp [absOps, ← h.2]

example (pt dir t s : Ov) : (absOps.geo pt dir t s).1 ≠ .throw .stepError := by simp [absOps]

/-- the hypotheses of `C83_not_in_search`: a landscape with a hole at the trial step -/
example : ∃ (env : LSEnv Ov Ov Ov) (st : LSState Ov Ov), Absorbs (fun x : Ov => x = .nan) env.G env.getF ∧
    (∀ t s, ∃ r s', env.G t s = (.ok r, s')) ∧ env.getF st.s = .num 1 ∧
    env.getF (env.G (.num (1 / 5)) st.s).2 = .nan ∧ env.getF (env.G (.num (1 / 50)) st.s).2 = .num 0 :=
  ⟨{ G := fun t _ => (.ok t, if t = .num (1 / 50) then .num 0 else .nan), getF := id },
    { s := .num 1, forceRestart := false, evals := [] },
    by rintro _ s r s' rfl h; simp at h; simp [← h.2], fun t s => ⟨_, _, rfl⟩, rfl, by decide +kernel, by decide +kernel⟩

/-- the hypotheses of `C83_success_is_a_number_partial`: a run that succeeds in an arithmetic with NaNs -/
example : (toyOps (.num 1 : Ov)).Clean ∧ (toyOps (.num 1 : Ov)).Quiet ∧
    (nlcg (toyOps (.num 1 : Ov)) { maxiter := 5, tol := .num (1 / 100), tau := .num (1 / 10), restart := 2 } 9 0
      (blank (.num 7))).map (fun r => r.1) =
      some (.ok { vals := some { tolerance := .num (-1), F := .num 0, S := .num 0, iter := 1 }, converged := true }) :=
  ⟨toy_clean _, toy_quiet _, by decide +kernel⟩

end Nlcg
