import Verif.Proofs.ZeroWeight
import Verif.Model.Occupation
import Verif.Props.NaN

/-!
# C102: k-points of weight zero do not disturb the calculation

`Spec.ZeroLaws zero bad`: `zero` are the zeros and `bad` the NaNs of IEEE 754; otherwise the arithmetic is arbitrary.
-/

namespace Nlcg
open Arith Spec
variable {α σ ρ δ : Type} [Arith α] {zero bad : α → Prop}

theorem kSum_skip_zero (g : ℝ → ℝ) (hg : g 0 = 0) (func : ℝ → ℝ → ℝ) (xAll : KMap Key (List ℝ))
    (wkAll : KMap Key ℝ) (T occ mu : ℝ) :
    kSum g func xAll wkAll T occ mu = kSum g func xAll (wkAll.filter fun e => decide (e.2 ≠ 0)) T occ mu := by
  unfold kSum
  generalize (Arith.lit 0 : ℝ) = s0
  induction wkAll generalizing s0 with
  | nil => rfl
  | cons e l ih =>
    rw [List.foldl_cons, ih]
    by_cases h : e.2 = 0
    · rw [List.filter_cons_of_neg (by simp [h])]
      simp [h, hg]
    · rw [List.filter_cons_of_pos (by simp [h]), List.foldl_cons]

/-- **C102**, what holds: in exact arithmetic the chemical potential, and with it the occupations of all bands, are
those without the k-points of weight zero. -/
theorem C102_occupations_partial (gauss sf : SmearFns ℝ) (T occ ne tol : ℝ) (xAll : KMap Key (List ℝ))
    (wkAll : KMap Key ℝ) :
    chemPotGathered sf T occ ne tol xAll wkAll =
      chemPotGathered sf T occ ne tol xAll (wkAll.filter fun e => decide (e.2 ≠ 0)) ∧
    chemPotGatheredNewton gauss sf T occ ne tol xAll wkAll =
      chemPotGatheredNewton gauss sf T occ ne tol xAll (wkAll.filter fun e => decide (e.2 ≠ 0)) := by
  constructor
  · unfold chemPotGathered
    simp only [← kSum_skip_zero id rfl]
  · unfold chemPotGatheredNewton
    simp only
    congr 1 <;> funext mu
    · rw [← kSum_skip_zero id rfl]
    · rw [← kSum_skip_zero id rfl]
    · rw [← kSum_skip_zero _ (by simp)]
    · rw [← kSum_skip_zero _ (by simp)]

/-- **C102** is false of the direction: all elements of the direction of the pseudo-Hamiltonian of a k-point of
weight zero are NaN, whatever the Hamiltonian (the inner products `ip`), the band energies and `kappa` are. -/
theorem C102_not_direction (hz : ZeroLaws zero bad) {n : ℕ} {wk : α} (hw : zero wk) (kappa : α)
    (ip : Fin n → Fin n → Cx α) (ek : Fin n → α) (i j : Fin n) :
    bad (deltaEtaA kappa (hijW wk ip) ek wk i j).1 ∧ bad (deltaEtaA kappa (hijW wk ip) ek wk i j).2 :=
  deltaEtaA_bad hz hw kappa ip ek i j

/-- **C102** is false of the slope: one k-point of weight zero, on any rank, makes the slope of the whole system
NaN, on all ranks, for any number of k-points, of ranks, and any order of adding them up. -/
theorem C102_not_slope (hz : ZeroLaws zero bad) (kappa : α) (o : Order) (ranks : List (List (KPoint α)))
    (hc : Covers o ranks.length) (hk : ∃ ks ∈ ranks, ∃ k ∈ ks, ZeroWeight zero k) (fr : α)
    (h : frTotal kappa o ranks = .ok fr) : bad fr ∧ ∀ frOld slopeZp, bad (cgSlope fr frOld slopeZp) :=
  ⟨frTotal_bad hz kappa o ranks hc hk fr h, fun _ _ => cgSlope_bad hz _ _ (frTotal_bad hz kappa o ranks hc hk fr h)⟩

/-- **C102**: with such a slope the search evaluates two points, the trial step and a step that is NaN, and takes
the latter. -/
theorem C102_not_search (hz : ZeroLaws zero bad) (env : LSEnv α σ ρ) (p : LSParams α) (fuel : Nat) (slope : α)
    (hs : bad slope) (st : LSState α σ) (hG : Absorbs bad env.G env.getF)
    (hok : ∀ t s, ∃ r s', env.G t s = (.ok r, s')) :
    ∃ r st' t, lineSearch env p (fuel + 1) slope st = some (.ok r, st') ∧ st'.evals = t :: p.tTrial :: st.evals ∧
      bad t ∧ bad (env.getF st'.s) ∧ st'.forceRestart = false := by
  obtain ⟨r1, s1, h1⟩ := hok p.tTrial st.s
  obtain ⟨r2, s2, h2⟩ := hok (qMin slope (qCurv (env.getF st.s) slope (env.getF s1) p.tTrial)) s1
  have ht := qMin_bad_slope hz (a := qCurv (env.getF st.s) slope (env.getF s1) p.tTrial) hs
  have hF := hG _ _ _ _ ht h2
  exact ⟨r2, _, _, lineSearch_bad_slope hz env p fuel slope st hs h1 h2 (hz.lt_right _ _ hF), rfl, ht, hF, rfl⟩

/-- **C102**: no run with a k-point of weight zero converges, all residuals it reports are NaN, and so are all free
energies from the second on. -/
theorem C102_not_run (hz : ZeroLaws zero bad) {kappa : α} (ops : Ops α σ ρ δ) (hops : SlopesWithZero zero kappa ops)
    (hk : KeepsEnergy ops) (hG : ∀ pt dir, Absorbs bad (ops.geo pt dir) ops.getF)
    (hst : ∀ pt dir t s, (ops.geo pt dir t s).1 ≠ .throw .stepError)
    (prm : NlcgParams α) (fuel rank : Nat) (w w' : NState α σ) (o : Res (Info α))
    (h : nlcg ops prm fuel rank w = some (o, w')) :
    (∀ info, o = .ok info → info.converged = false) ∧
    ∀ i F S slope, (i, F, S, slope) ∈ reports w'.trace → bad slope ∧ (i ≠ 0 → bad F) := by
  cases nlcg_run ops prm fuel rank w _ _ h with
  | construct => exact ⟨fun info h => absurd h (Res.fail_ne_ok _ _), by simp [reports]⟩
  | setup => exact ⟨fun info h => absurd h (Res.fail_ne_ok _ _), by simp [reports]⟩
  | restarted => exact ⟨fun info h => absurd h (Res.fail_ne_ok _ _), by simp [reports]⟩
  | loop s1 pt s2 slope dir s3 o w' h1 h2 h3 h4 =>
    obtain ⟨o', ranks, a1, a2, a3⟩ := hops.restarted _ _ _ _ _ h3
    obtain ⟨⟨new, e1, e2⟩, -, e3⟩ := h4.bad_slope hz hops hk hG hst (frTotal_bad hz _ _ _ a1 a2 _ a3) rfl (by simp)
    refine ⟨e3, fun i F S slope hm => ?_⟩
    simp only [reports, List.nil_append] at e1
    rw [e1] at hm
    exact e2 _ hm

/-! ## A concrete run -/

theorem ov_zero_laws : ZeroLaws (fun x : Ov => x = .num 0) (fun x : Ov => x = .nan) where
  toNaNLaws := ov_nan_laws
  add_left := by rintro _ b rfl; rcases b with q | _ | _ <;> rfl
  add_right := by rintro a _ rfl; rcases a with q | _ | _ <;> rfl
  mul_left := by rintro _ b rfl; rcases b with q | _ | _ <;> rfl
  neg := by rintro _ rfl; rfl
  zero_mul := by
    rintro _ b rfl
    rcases b with q | _ | _
    · left; simp [Arith.mul, Ov.mul, Ov.norm, Ov.huge]
    · right; simp [Arith.mul, Ov.mul]
    · right; rfl
  div_zero_mul := by
    rintro x _ _ rfl rfl
    rcases x with q | _ | _
    · by_cases h : q = 0 <;> simp [Arith.mul, Arith.div, Ov.mul, Ov.div, h]
    · simp [Arith.mul, Arith.div, Ov.mul, Ov.div]
    · rfl

/-- a k-point with one band, whose band energy is the diagonal element of its Hamiltonian -/
def oneBand (wk frX : Ov) : KPoint Ov :=
  { nbands := 1, wk := wk, ip := fun _ _ => (.num 1, .num 0), ek := fun _ => .num 1,
    gEta := fun _ _ => (.num 0, .num 0), frX := frX }

/-- The energy `x²`, which belongs to the first k-point, and further k-points `extra` on another rank that
contribute nothing to it. -/
def squareOps (extra : List (KPoint Ov)) : Ops Ov Ov Ov Ov where
  construct s := (.ok (), s)
  setup _ := (.ok (.num 1), .num 1)
  restarted x s := match frTotal (.num (3 / 10)) (.join (.rank 0) (.rank 1))
      [[oneBand (.num 1) (.num (-4) *ᶠ (x *ᶠ x))], extra] with
    | .ok fr => (.ok (fr, .num (-2) *ᶠ x), s)
    | _ => (.ub, s)
  conjugated frOld x d s := match frTotal (.num (3 / 10)) (.join (.rank 0) (.rank 1))
      [[oneBand (.num 1) (.num (-4) *ᶠ (x *ᶠ x))], extra] with
    | .ok fr => (.ok (fr, cgSlope fr frOld (.num 2 *ᶠ x *ᶠ d), (.num (-2) *ᶠ x) +ᶠ (fr /ᶠ frOld) *ᶠ d), s)
    | _ => (.ub, s)
  geo x d t _ := (.ok (x +ᶠ t *ᶠ d), (x +ᶠ t *ᶠ d) *ᶠ (x +ᶠ t *ᶠ d))
  refresh x s := (.ok x, s)
  gather _ s := (.ok (), s)
  hostPrint s := (.ok (), s)
  getF s := s
  getS _ := .num 0

def squarePrm : NlcgParams Ov := { maxiter := 4, tol := .num (1 / 100), tau := .num (1 / 10), restart := 2 }

/-- **C102** is false: alone, and with a second k-point of weight one, the run converges in the second iteration;
with a second k-point of weight zero it does not converge, and ends with NaNs. -/
theorem C102_not :
    (∀ extra ∈ [[], [oneBand (.num 1) (.num 0)]],
      (nlcg (squareOps extra) squarePrm 9 0 (blank (.num 7))).map (fun r => r.1) =
        some (.ok { vals := some { tolerance := .num (-1), F := .num 0, S := .num 0, iter := 1 }, converged := true })) ∧
    (nlcg (squareOps [oneBand (.num 0) (.num 0)]) squarePrm 9 0 (blank (.num 7))).map
      (fun r => (r.1, (reports r.2.trace).map (·.2.1))) =
      some (.ok { vals := some { tolerance := .nan, F := .nan, S := .num 0, iter := 3 }, converged := false },
        [.num 1, .nan, .nan, .nan]) := by
  refine ⟨?_, by decide +kernel⟩
  intro extra h
  simp only [List.mem_cons, List.not_mem_nil, or_false] at h
  rcases h with rfl | rfl <;> decide +kernel

/-- the hypotheses of `C102_not_run` for this run -/
example : SlopesWithZero (fun x : Ov => x = .num 0) (.num (3 / 10)) (squareOps [oneBand (.num 0) (.num 0)]) := by
  have hc : Covers (.join (.rank 0) (.rank 1)) 2 := by simp [Covers, Order.ranks, List.range_succ]
  constructor
  · intro pt s fr dir s' h
    simp only [squareOps] at h
    split at h
    · next fr' hf =>
      simp only [Prod.mk.injEq, Res.ok.injEq] at h
      refine ⟨_, _, ?_, ⟨_, List.mem_cons_of_mem _ (List.mem_singleton.2 rfl), _, List.mem_singleton.2 rfl, rfl, ?_⟩,
        h.1.1 ▸ hf⟩
      · exact hc
      · simp [oneBand]
    · simp at h
  · intro frOld pt d s fr slope dir s' h
    simp only [squareOps] at h
    split at h
    · next fr' hf =>
      simp only [Prod.mk.injEq, Res.ok.injEq] at h
      obtain ⟨⟨rfl, h2, -⟩, -⟩ := h
      refine ⟨_, _, _, ?_, ⟨_, List.mem_cons_of_mem _ (List.mem_singleton.2 rfl), _, List.mem_singleton.2 rfl, rfl, ?_⟩,
        hf, h2.symm⟩
      · exact hc
      · simp [oneBand]
    · simp at h

example (extra : List (KPoint Ov)) : KeepsEnergy (squareOps extra) := by
  constructor
  · intro r s; rfl
  · intro pt s; simp only [squareOps]; split <;> rfl
  · intro fr pt dir s; simp only [squareOps]; split <;> rfl
  · intro pt s; rfl
  · intro s; rfl

example (extra : List (KPoint Ov)) (pt dir : Ov) :
    Absorbs (fun x : Ov => x = .nan) ((squareOps extra).geo pt dir) (squareOps extra).getF := by
  rintro _ s r s' rfl h
  rcases pt with q | _ | _ <;>
    simp [squareOps, Arith.mul, Ov.mul, Arith.add, Ov.add] at h <;> simp [squareOps, ← h.2]

example (extra : List (KPoint Ov)) (pt dir t s : Ov) : ((squareOps extra).geo pt dir t s).1 ≠ .throw .stepError := by
  simp [squareOps]

/-- `C102_occupations_partial` for two k-points, one of weight zero: the filter drops it -/
example : ([(toLex (0, 0), (1 : ℝ)), (toLex (1, 0), 0)] : KMap Key ℝ).filter (fun e => decide (e.2 ≠ 0)) =
    [(toLex (0, 0), 1)] := by
  simp [List.filter]

end Nlcg
