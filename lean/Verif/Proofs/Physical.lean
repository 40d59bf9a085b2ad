import Verif.Spec.Physical
import Verif.Proofs.SolverRun
import Verif.Proofs.Insulator
import Verif.Props.ChemPot

/-! The states handed to the host. -/

namespace Nlcg
open Matrix Spec ComplexOrder Arith

variable {K : ℕ} {n b : Fin K → ℕ} {η : Type}

/-- all occupations handed over come from the search -/
def AllFn (c : Cfg n b) (s : SState η n b) : Prop :=
  ∀ f, HostCall.setFn f ∈ s.calls → ∃ ek mu, c.occ ek = .ok (mu, f)

theorem AllFn.evaluate {host : Host η n b} {c : Cfg n b} {X : Orbitals n b} {f ek : Bands b} {mu : ℝ}
    {s : SState η n b} (h : AllFn c s) (ho : c.occ ek = .ok (mu, f)) :
    AllFn c (evaluate host c X f ek mu s).2 := by
  have key : ∀ cs : List (HostCall n b), (∀ x ∈ cs, x ∈ evaluation (X, f, mu)) →
      ∀ g, HostCall.setFn g ∈ s.calls ++ cs → ∃ ek mu, c.occ ek = .ok (mu, g) := by
    intro cs hcs g hg
    rcases List.mem_append.1 hg with hg | hg
    · exact h g hg
    · have := hcs _ hg
      simp only [evaluation, List.mem_cons, reduceCtorEq, HostCall.setFn.injEq, List.not_mem_nil, or_false,
        false_or] at this
      subst this
      exact ⟨ek, mu, ho⟩
  rcases evaluate_calls host c X f ek mu s with ⟨s', cs, e1, e2, e3⟩ | ⟨s', e1, e2⟩
  · rw [e1]; intro g hg; rw [e2] at hg; exact key cs (fun x hx => e3.subset hx) g hg
  · rw [e1]; intro g hg; rw [e2] at hg; exact key _ (fun x hx => hx) g hg

theorem keeps_allFn {β : Type} {c : Cfg n b} {q : Res β × SState η n b} (h : AllFn c q.2) :
    Keeps (AllFn c) (AllFn c) (fun _ _ => True) q := ⟨h, fun _ => h, fun _ _ => trivial⟩

theorem allFn_rule (host : Host η n b) (c : Cfg n b) :
    RunRule (solverOps host c) (fun s => s.calls = []) (AllFn c) (AllFn c) (fun _ _ => True)
      (fun _ _ => True) (fun _ _ _ => True) where
  weaken := fun s h => h
  construct := fun s h => ⟨by intro f hf; rw [show (solverOps host c).construct s = _ from rfl] at hf; simp [solverOps, h] at hf,
    fun _ => h, fun _ _ => trivial⟩
  setup := by
    intro s h1
    show Keeps _ _ _ (solverSetup host c s)
    rw [solverSetup, hostCall_bind, h1]
    have hend : ∀ (h : η) (F S : ℝ), AllFn c { h := h, F := F, S := S, calls := [HostCall.compute (n := n) (b := b)] } := by
      intro h F S f hf; simp at hf
    rcases hc : host.compute s.h with ⟨_ | u, s1⟩
    · exact ⟨hend _ _ _, fun _ => trivial, by simp⟩
    simp only [List.nil_append]
    rw [SM.get_bind, SM.lift_bind]
    simp only
    rcases hocc : c.occ (host.ek s1) with ⟨mu, f⟩ | e | _ | _
    · simp only
      rw [SM.get_bind, SM.bind_apply]
      have ha := (hend s1 s.F s.S).evaluate (host := host) (X := host.C s1) hocc
      generalize evaluate host c (host.C s1) f (host.ek s1) mu _ = q at ha ⊢
      rcases q with ⟨_ | e | _ | _, s2⟩
      · simp only
        rw [SM.get_bind, SM.pure_apply]
        exact ⟨ha, fun _ => trivial, fun _ _ => ⟨ha, trivial⟩⟩
      all_goals exact ⟨ha, fun _ => trivial, by simp⟩
    all_goals exact ⟨hend _ _ _, fun _ => trivial, by simp⟩
  restarted := fun pt s h _ => ⟨h, fun _ => h, fun _ _ => ⟨trivial, trivial⟩⟩
  conjugated := fun fr pt dir s pt0 sl0 h _ _ => ⟨h, fun _ => h, fun _ _ => ⟨trivial, fun _ => trivial⟩⟩
  geo := by
    intro pt dir sl t s hI hD
    show Keeps _ _ _ (solverGeo host c pt dir t s)
    rw [solverGeo, SM.lift_bind]
    rcases hg : forAllK (fun k =>
      geodesicUs c.la (pt.X k) (pt.eta k) (dir.zx k) (dir.zeta k) (c.S k) t) with g | e | _ | _
    · simp only
      rw [SM.lift_bind]
      rcases hocc : c.occ (fun k => (g k).ek) with ⟨mu, f⟩ | e | _ | _
      · simp only
        rw [SM.bind_apply]
        have ha := hI.evaluate (host := host) (X := fun k => (g k).X) hocc
        generalize evaluate host c (fun k => (g k).X) f (fun k => (g k).ek) mu s = q at ha ⊢
        rcases q with ⟨_ | e | _ | _, s2⟩ <;> exact keeps_allFn ha
      all_goals exact keeps_allFn hI
    all_goals exact keeps_allFn hI
  refresh := fun r s h _ => keeps_allFn h
  gather := fun pt s h _ => keeps_allFn h
  print := by
    intro pt s hI _
    show Keeps _ _ _ (hostCall .print host.print s)
    rw [hostCall]
    have : ∀ h : η, AllFn c { s with h := h, calls := s.calls ++ [HostCall.print] } := by
      intro h f hf
      simp only [List.mem_append, List.mem_singleton, reduceCtorEq, or_false] at hf
      exact hI f hf
    rcases hc : host.print s.h with ⟨_ | u, s1⟩ <;> exact keeps_allFn (this _)

/-! ## One k-point -/

variable {N B : ℕ}

theorem trace_density {S : Mat N N} {X : Mat N B} (h : SOrtho S X) (f : Fin B → ℝ) :
    (trace (S * (X * diagonal (fun i => (f i : ℂ)) * Xᴴ))).re = ∑ i, f i := by
  have : trace (S * (X * diagonal (fun i => (f i : ℂ)) * Xᴴ)) = trace (Xᴴ * (S * X) * diagonal fun i => (f i : ℂ)) := by
    rw [← Matrix.mul_assoc, ← Matrix.mul_assoc, trace_mul_comm]
    simp only [Matrix.mul_assoc]
  rw [this, h, Matrix.one_mul, trace_diagonal, Complex.re_sum]
  simp

theorem expectation_density {S : Mat N N} (hS : S.IsHermitian) (X : Mat N B) (f : Fin B → ℝ) (v : Fin N → ℂ) :
    expectation (S * (X * diagonal (fun i => (f i : ℂ)) * Xᴴ) * S) v
      = ∑ i, f i * Complex.normSq ((Xᴴ *ᵥ (S *ᵥ v)) i) := by
  have e : star v ⬝ᵥ ((S * (X * diagonal (fun i => (f i : ℂ)) * Xᴴ) * S) *ᵥ v)
      = star (Xᴴ *ᵥ (S *ᵥ v)) ⬝ᵥ (diagonal (fun i => (f i : ℂ)) *ᵥ (Xᴴ *ᵥ (S *ᵥ v))) := by
    rw [star_mulVec, star_mulVec, conjTranspose_conjTranspose, hS.eq, ← dotProduct_mulVec, ← dotProduct_mulVec]
    simp only [Matrix.mulVec_mulVec, Matrix.mul_assoc]
  rw [expectation, e, dotProduct, Complex.re_sum]
  refine Finset.sum_congr rfl fun i _ => ?_
  rw [mulVec_diagonal, Pi.star_apply]
  generalize (Xᴴ *ᵥ (S *ᵥ v)) i = z
  simp [Complex.normSq_apply]
  ring

/-- Bessel's inequality -/
theorem bessel {S : Mat N N} (hS : S.PosSemidef) {X : Mat N B} (h : SOrtho S X) (v : Fin N → ℂ) :
    ∑ i, Complex.normSq ((Xᴴ *ᵥ (S *ᵥ v)) i) ≤ expectation S v := by
  set u := Xᴴ *ᵥ (S *ᵥ v) with hu
  have h0 := (Complex.le_def.1 (hS.dotProduct_mulVec_nonneg (v - X *ᵥ u))).1
  have hn : (star u ⬝ᵥ u).re = ∑ i, Complex.normSq (u i) := by
    rw [dotProduct, Complex.re_sum]
    refine Finset.sum_congr rfl fun i _ => ?_
    simp [Complex.normSq_apply]
  have h1 : star (X *ᵥ u) ⬝ᵥ (S *ᵥ v) = star u ⬝ᵥ u := by
    rw [star_mulVec, ← dotProduct_mulVec]
  have h2 : star v ⬝ᵥ (S *ᵥ (X *ᵥ u)) = star u ⬝ᵥ u := by
    rw [hu, star_mulVec, star_mulVec, conjTranspose_conjTranspose, hS.isHermitian.eq, ← dotProduct_mulVec,
      ← dotProduct_mulVec]
  have h3 : star (X *ᵥ u) ⬝ᵥ (S *ᵥ (X *ᵥ u)) = star u ⬝ᵥ u := by
    rw [star_mulVec, ← dotProduct_mulVec]
    simp only [Matrix.mulVec_mulVec]
    rw [h, Matrix.one_mulVec]
  have e : star (v - X *ᵥ u) ⬝ᵥ (S *ᵥ (v - X *ᵥ u)) = star v ⬝ᵥ (S *ᵥ v) - star u ⬝ᵥ u := by
    rw [star_sub, mulVec_sub, sub_dotProduct, dotProduct_sub, dotProduct_sub, h1, h2, h3]
    ring
  rw [e] at h0
  simp only [Complex.zero_re, Complex.sub_re, hn] at h0
  rw [expectation]
  linarith

/-! ## What the search accepts -/

theorem searchOcc_charge_newton {t : SmearType} {p : OccParams ℝ} {key : Fin K → Key} (hk : Function.Injective key)
    {wk : Fin K → ℝ} {ek : Bands b} {mu : ℝ} {f : Bands b} (h : searchOcc true t p key wk ek = .ok (mu, f)) :
    |p.ne - ∑ k, wk k * ∑ i, f k i| ≤ max (1 / 100) p.tol := by
  obtain ⟨h1, h2⟩ := searchOcc_ok h
  subst h2
  simp only [globalSearch, if_true, chemPotGatheredNewton] at h1
  rcases C04_accuracy_partial
    (fun mu => p.ne -ᶠ kSum id (smearFns .gauss).fn (KMap.ofRange (oneRank key wk ek).energies.flatten)
      (KMap.ofRange (oneRank key wk ek).weights.flatten) p.T p.occ mu)
    (fun mu => kSum id (smearFns t).fn (KMap.ofRange (oneRank key wk ek).energies.flatten)
      (KMap.ofRange (oneRank key wk ek).weights.flatten) p.T p.occ mu)
    (fun mu => kSum (· /ᶠ (lit kB *ᶠ p.T)) (smearFns t).delta (KMap.ofRange (oneRank key wk ek).energies.flatten)
      (KMap.ofRange (oneRank key wk ek).weights.flatten) p.T p.occ mu)
    (fun mu => kSum (· /ᶠ ((lit kB *ᶠ p.T) *ᶠ (lit kB *ᶠ p.T))) (smearFns t).dxdelta
      (KMap.ofRange (oneRank key wk ek).energies.flatten) (KMap.ofRange (oneRank key wk ek).weights.flatten) p.T p.occ mu)
    p.ne p.tol with ⟨m, h3, h4⟩ | h3
  · rw [h3] at h1
    cases h1
    rw [kSum_oneRank id _ hk] at h4
    simp only [List.map_ofFn, List.sum_ofFn, Function.comp_def, id] at h4
    rcases h4 with h4 | h4
    · simp only [real_sub, real_abs, real_lt, decide_eq_false_iff_not, not_lt, real_lit] at h4
      rw [abs_sub_comm] at h4
      refine le_trans h4 (le_trans ?_ (le_max_left _ _))
      norm_num
    · simp only [real_sub, real_abs, real_lt, decide_eq_true_eq] at h4
      exact le_trans h4.le (le_max_right _ _)
  · rw [h3] at h1
    cases h1

/-! ## The order of the calls -/

theorem computed_handed {cs : List (HostCall n b)} {l : Option (Evaluated n b)} (hp : Protocol cs l) :
    ∀ before after, cs = before ++ .compute :: after →
      before = [] ∨ ∃ X f before', before = before' ++ [.setC X, .setFn f] := by
  induction hp with
  | start =>
    intro before after h
    rcases before with _ | ⟨x, before⟩
    · exact .inl rfl
    · simp at h
  | evaluate cs l p hp ih =>
    intro before after h
    rcases List.append_eq_append_iff.1 h with ⟨a, rfl, h2⟩ | ⟨a, rfl, h2⟩
    · right
      rcases a with _ | ⟨x1, _ | ⟨x2, _ | ⟨x3, a⟩⟩⟩
      · simp [evaluation] at h2
      · simp [evaluation] at h2
      · simp only [evaluation, List.cons_append, List.nil_append, List.cons.injEq] at h2
        obtain ⟨rfl, rfl, -⟩ := h2
        exact ⟨_, _, _, rfl⟩
      · exfalso
        simp only [evaluation, List.cons_append, List.cons.injEq] at h2
        obtain ⟨-, -, -, h2⟩ := h2
        rcases a with _ | ⟨x4, _ | ⟨x5, a⟩⟩ <;> simp at h2
    · rcases a with _ | ⟨x, a⟩
      · simp [evaluation] at h2
      · rw [List.cons_append, List.cons.injEq] at h2
        obtain ⟨rfl, -⟩ := h2
        exact ih before a rfl
  | print cs p hp ih =>
    intro before after h
    rcases List.append_eq_append_iff.1 h with ⟨a, rfl, h2⟩ | ⟨a, rfl, h2⟩
    · exfalso
      rcases a with _ | ⟨x, a⟩ <;> simp at h2
    · rcases a with _ | ⟨x, a⟩
      · simp at h2
      · rw [List.cons_append, List.cons.injEq] at h2
        obtain ⟨rfl, -⟩ := h2
        exact ih before a rfl

theorem last_handed {cs : List (HostCall n b)} {p : Evaluated n b} (hp : Protocol cs (some p)) :
    Handed cs p.1 p.2.1 := by
  generalize hl : some p = l at hp
  induction hp with
  | start => cases hl
  | evaluate cs l q hp ih =>
    cases hl
    exact ⟨cs, [.compute, .setMu p.2.2, .energy], by simp [evaluation]⟩
  | print cs q hp ih =>
    obtain ⟨a, c, h⟩ := ih hl
    exact ⟨a, c ++ [.print], by rw [← h]; simp⟩

end Nlcg
