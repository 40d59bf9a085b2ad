import Verif.Proofs.CutTol
import Verif.Props.CutShort

/-!
# C120: a smaller tolerance or a larger limit prolongs the run, and never gives a higher free energy
-/

namespace Nlcg
open Matrix Spec Arith

variable {K : ℕ} {n b : Fin K → ℕ} {η : Type} {host : Host η n b} {c : Cfg n b} {prm : NlcgParams ℝ} {fuel rank : ℕ}

/-- in the solver a gather does nothing, and printing fails only with the exception of the host -/
theorem solver_plain (host : Host η n b) (c : Cfg n b) : PlainOutput (solverOps host c) where
  gather _ _ := rfl
  print s := by
    show (hostCall .print host.print s).1 = _ ∨ (hostCall .print host.print s).1 = _
    rw [hostCall]
    rcases host.print s.h with ⟨_ | r, h'⟩
    · exact .inr rfl
    · exact .inl rfl

theorem RunLe.doneBefore {v v' : NState ℝ (SState η n b)}
    (h : RunLe (fun s t : SState η n b => s.calls <+: t.calls) v v') : DoneBefore v v' := by
  refine ⟨h.s, h.file, ?_⟩
  obtain ⟨l, hl⟩ := h.trace
  rw [← hl, reports_append]
  exact List.prefix_append _ _

/-- **C120.** A larger tolerance either changes nothing, or the run returns with success, having done the first
part of what it does with the smaller tolerance. -/
theorem C120_tolerance {tol tol' : ℝ} (ht : tol' ≤ tol) {w v v' : NState ℝ (SState η n b)} {o o' : Res (Info ℝ)}
    (h : solve host c { prm with tol := tol } fuel rank w = some (o, v))
    (h' : solve host c { prm with tol := tol' } fuel rank w = some (o', v')) :
    (o = o' ∧ v = v') ∨ (o = .ok v.info ∧ v.info.converged = true ∧ DoneBefore v v' ∧ v.trace <+: v'.trace) := by
  have k := tol_run (solver_grows host c) (solver_plain host c) { prm with tol := tol } (tol := tol') ht fuel rank w
  rw [show nlcg (solverOps host c) _ fuel rank w = some (o, v) from h,
    show nlcg (solverOps host c) _ fuel rank w = some (o', v') from h'] at k
  generalize hx : some (o, v) = x at k
  generalize hy : some (o', v') = y at k
  cases k with
  | same x =>
    left
    rw [← hx] at hy
    cases hy
    exact ⟨rfl, rfl⟩
  | reached h1 h2 =>
    right
    cases hx
    exact ⟨rfl, h1, (h2 _ hy.symm).doneBefore, (h2 _ hy.symm).trace⟩

/-- **C120.** A smaller tolerance together with a larger limit either changes nothing, or the run with the larger
tolerance and the smaller limit returns, having done the first part of what the other run does. -/
theorem C120_effort {tol tol' : ℝ} (ht : tol' ≤ tol) {m m' : ℤ} (hm : m ≤ m') {w v v' : NState ℝ (SState η n b)}
    {o o' : Res (Info ℝ)}
    (h : solve host c { prm with tol := tol, maxiter := m } fuel rank w = some (o, v))
    (h' : solve host c { prm with tol := tol', maxiter := m' } fuel rank w = some (o', v')) :
    (o = o' ∧ v = v') ∨ (o = .ok v.info ∧ DoneBefore v v' ∧ v.trace <+: v'.trace) := by
  have hmid : ∃ q u, solve host c { prm with tol := tol', maxiter := m } fuel rank w = some (q, u) := by
    have k := limit_run (solver_grows host c) { prm with tol := tol' } m m' hm fuel rank w
    rw [show nlcg (solverOps host c) { prm with tol := tol', maxiter := m' } fuel rank w = some (o', v') from h'] at k
    rw [solve]
    generalize nlcg (solverOps host c) { prm with tol := tol', maxiter := m } fuel rank w = x at k
    cases k with
    | same => exact ⟨_, _, rfl⟩
    | limit => exact ⟨_, _, rfl⟩
  obtain ⟨q, u, hu⟩ := hmid
  have h1 := C120_tolerance (prm := { prm with maxiter := m }) ht h hu
  have h2 := C119_limit (prm := { prm with tol := tol' }) hm hu h'
  rcases h1 with ⟨rfl, rfl⟩ | ⟨ho, -, hd, hp⟩
  · rcases h2 with h2 | ⟨ho, -, hd, hp⟩
    · exact .inl h2
    · exact .inr ⟨ho, hd, hp⟩
  · rcases h2 with ⟨rfl, rfl⟩ | ⟨-, -, hd', hp'⟩
    · exact .inr ⟨ho, hd, hp⟩
    · exact .inr ⟨ho, ⟨hd.calls.trans hd'.calls, hd.file.trans hd'.file, hd.reports.trans hd'.reports⟩, hp.trans hp'⟩

/-- the last value of a longer non-increasing list is not larger -/
theorem last_le {β : Type} {f : β → ℝ} {l l' : List β} (hl : l <+: l') (hd : (l'.map f).Pairwise (· ≥ ·)) {x x' : β}
    (hx : l.getLast? = some x) (hx' : l'.getLast? = some x') : f x' ≤ f x := by
  obtain ⟨a, rfl⟩ := List.getLast?_eq_some_iff.1 hx
  obtain ⟨t, rfl⟩ := hl
  rcases List.eq_nil_or_concat t with rfl | ⟨t', y, rfl⟩
  · rw [List.append_nil, hx] at hx'
    cases hx'
    exact le_rfl
  · rw [List.getLast?_append_of_ne_nil _ (by simp)] at hx'
    simp only [List.concat_eq_append, List.getLast?_append, List.getLast?_singleton, Option.some_or,
      Option.some.injEq] at hx'
    subst hx'
    rw [List.map_append, List.pairwise_append] at hd
    exact hd.2.2 (f x) (by simp) (f y) (by simp)

/-- **C120.** With a smaller tolerance and a larger limit the free energy that is returned is not higher. -/
theorem C120_energy (hs : Setting host c) {E : Orbitals n b → Bands b → ℝ} (hE : EnergyOf host c E)
    {w v v' : NState ℝ (SState η n b)} (h0 : SStart host c w.s) {tol tol' : ℝ} (ht : tol' ≤ tol) {m m' : ℤ}
    (hm : m ≤ m') {info info' : Info ℝ}
    (h : solve host c { prm with tol := tol, maxiter := m } fuel rank w = some (.ok info, v))
    (h' : solve host c { prm with tol := tol', maxiter := m' } fuel rank w = some (.ok info', v'))
    {x x' : InfoVals ℝ} (hx : info.vals = some x) (hx' : info'.vals = some x') : x'.F ≤ x.F := by
  have hr : reports v.trace <+: reports v'.trace := by
    rcases C120_effort ht hm h h' with ⟨-, rfl⟩ | ⟨-, hd, -⟩
    · exact List.prefix_rfl
    · exact hd.reports
  have hd := C29_run_energies hs hE h0 h'
  rw [returned_info h, Option.map_eq_some_iff] at hx
  rw [returned_info h', Option.map_eq_some_iff] at hx'
  obtain ⟨r, h1, rfl⟩ := hx
  obtain ⟨r', h2, rfl⟩ := hx'
  exact last_le hr hd h1 h2

/-! ## Examples -/

/-- runs with different tolerances and limits: both end, and the one with more effort has done what the other one
has done -/
example (prm : NlcgParams ℝ) {tol tol' : ℝ} (ht' : 0 < tol') (ht : tol' ≤ tol) (m m' : ℤ) (hm : m ≤ m') :
    ∃ fuel o v o' v',
      solve demoHost (demoCfg demoOcc) { prm with tol := tol, maxiter := m } fuel 0 (demoStart 5) = some (o, v) ∧
      solve demoHost (demoCfg demoOcc) { prm with tol := tol', maxiter := m' } fuel 0 (demoStart 5) = some (o', v') ∧
      v.trace <+: v'.trace ∧ ∀ info info' x x', o = .ok info → o' = .ok info' → info.vals = some x →
        info'.vals = some x' → x'.F ≤ x.F := by
  have hN := fun (t : ℝ) (ht : 0 < t) (k : ℤ) => C30_run_ends_solver (w := demoStart 5)
    (prm := { prm with tol := t, maxiter := k }) demo_settings.1
    demo_energies.1 (demo_start _ _ _) (by norm_num [demoCfg]) 0 (demo_bounded demoOcc) ht
  obtain ⟨N, hN1⟩ := hN tol (ht'.trans_le ht) m
  obtain ⟨N', hN2⟩ := hN tol' ht' m'
  rcases hq : solve demoHost (demoCfg demoOcc) { prm with tol := tol, maxiter := m } (max N N') 0 (demoStart 5)
    with _ | ⟨o, v⟩
  · exact absurd hq (hN1 _ (le_max_left _ _) 0)
  rcases hq' : solve demoHost (demoCfg demoOcc) { prm with tol := tol', maxiter := m' } (max N N') 0 (demoStart 5)
    with _ | ⟨o', v'⟩
  · exact absurd hq' (hN2 _ (le_max_right _ _) 0)
  refine ⟨_, o, v, o', v', hq, hq', ?_, ?_⟩
  · rcases C120_effort ht hm hq hq' with ⟨-, rfl⟩ | ⟨-, -, h⟩
    · exact List.prefix_rfl
    · exact h
  · rintro info info' x x' rfl rfl hx hx'
    exact C120_energy demo_settings.1 demo_energies.1 (demo_start _ _ _) ht hm hq hq' hx hx'

end Nlcg
