import Verif.Proofs.CutHost
import Verif.Proofs.CutLimit
import Verif.Props.HostError

/-!
# C119: a run that is cut short has done what the complete run does first
-/

namespace Nlcg
open Matrix Spec Arith

variable {K : ℕ} {n b : Fin K → ℕ} {η : Type} {host : Host η n b} {c : Cfg n b} {prm : NlcgParams ℝ} {fuel rank : ℕ}

/-- **C119.** Suppose the host fails, from its call number `m` on. If the complete run makes at most `m` calls,
nothing changes. -/
theorem C119_late_failure {w v : NState ℝ (SState η n b)} {o : Res (Info ℝ)}
    (h : solve host c prm fuel rank w = some (o, v)) {m : ℕ} (hm : callsMade w v ≤ m) :
    ∃ v', solve (breaksAt m host) c prm fuel rank (withCount w) = some (o, v') ∧ withoutCount v' = v := by
  have k := (break_ops host c m w.s.calls.length).run prm fuel rank (withCount w) w
    ⟨⟨rfl, Nat.zero_le _, rfl⟩, rfl, rfl, rfl, rfl⟩
  rw [show nlcg (solverOps host c) prm fuel rank w = some (o, v) from h] at k
  rw [solve]
  generalize nlcg (solverOps (breaksAt m host) c) prm fuel rank (withCount w) = x at k
  cases k with
  | same hR =>
    rename_i v'
    obtain ⟨⟨h1, -, -⟩, h2, h3, h4, h5⟩ := hR
    refine ⟨v', rfl, ?_⟩
    obtain ⟨s, f, i, r, t⟩ := v
    simp only at h1 h2 h3 h4 h5
    subst h1 h2 h3 h4 h5
    rfl
  | cut hx =>
    obtain ⟨⟨h1, h2⟩, -, -⟩ := hx _ rfl
    have := h1.length_le
    simp only [callsMade] at hm this
    omega

/-- **C119.** Otherwise the run ends with the exception in call number `m`. Until then it has made the calls of
the complete run, with the same arguments and in the same order; the records in `nlcg.json` and the reported
values are the first ones of the complete run. -/
theorem C119_failure {w v : NState ℝ (SState η n b)} {o : Res (Info ℝ)}
    (h : solve host c prm fuel rank w = some (o, v)) {m : ℕ} (hm : m < callsMade w v) :
    ∃ v', solve (breaksAt m host) c prm fuel rank (withCount w) = some (.throw .runtimeError, v') ∧
      callsMade w v' = m + 1 ∧ v'.s.calls = v.s.calls.take (w.s.calls.length + m + 1) ∧ DoneBefore v' v := by
  have k := (break_ops host c m w.s.calls.length).run prm fuel rank (withCount w) w
    ⟨⟨rfl, Nat.zero_le _, rfl⟩, rfl, rfl, rfl, rfl⟩
  rw [show nlcg (solverOps host c) prm fuel rank w = some (o, v) from h] at k
  rw [solve]
  generalize nlcg (solverOps (breaksAt m host) c) prm fuel rank (withCount w) = x at k
  cases k with
  | same hR =>
    rename_i v'
    obtain ⟨⟨h1, h2, h3⟩, -⟩ := hR
    have : v.s.calls = v'.s.calls := by rw [h1]; rfl
    simp only [callsMade, this] at hm
    omega
  | cut hx =>
    rename_i v'
    obtain ⟨⟨h1, h2⟩, h3, h4⟩ := hx _ rfl
    refine ⟨v', rfl, ?_, ?_, ⟨h1, h3 trivial, h4⟩⟩
    · simp only [callsMade]; omega
    · rw [← h2]; exact List.prefix_iff_eq_take.1 h1

/-- **C119.** A smaller limit for the number of iterations either changes nothing, or the run returns after that
many iterations, having done the first part of what it does with the larger limit. -/
theorem C119_limit {m m' : ℤ} (hm : m ≤ m') {w v v' : NState ℝ (SState η n b)} {o o' : Res (Info ℝ)}
    (h : solve host c { prm with maxiter := m } fuel rank w = some (o, v))
    (h' : solve host c { prm with maxiter := m' } fuel rank w = some (o', v')) :
    (o = o' ∧ v = v') ∨ (o = .ok v.info ∧ (starts v.trace).length = m.toNat ∧ DoneBefore v v' ∧
      v.trace <+: v'.trace) := by
  have k := limit_run (solver_grows host c) prm m m' hm fuel rank w
  rw [show nlcg (solverOps host c) _ fuel rank w = some (o, v) from h,
    show nlcg (solverOps host c) _ fuel rank w = some (o', v') from h'] at k
  generalize hx : some (o, v) = x at k
  generalize hy : some (o', v') = y at k
  cases k with
  | same x =>
    left
    rw [← hx] at hy
    cases hy
    exact ⟨rfl, rfl⟩
  | limit h1 h2 =>
    right
    cases hx
    obtain ⟨k1, k2, k3⟩ := h2 _ hy.symm
    refine ⟨rfl, h1, ⟨k1, k2, ?_⟩, k3⟩
    obtain ⟨l, hl⟩ := k3
    simp only at hl
    rw [← hl, reports_append]
    exact List.prefix_append _ _

/-! ## Examples -/

/-- the example run makes more than three calls: the fourth one can fail, and is the last one then -/
example (prm : NlcgParams ℝ) (htol : 0 < prm.tol) (htau : prm.tau < 1) (hr : prm.restart ≠ 0) :
    ∃ fuel info v, solve demoHost (demoCfg demoOcc) prm fuel 0 (demoStart 5) = some (.ok info, v) ∧
      3 < callsMade (demoStart 5) v ∧ ∃ v',
        solve (breaksAt 3 demoHost) (demoCfg demoOcc) prm fuel 0 (withCount (demoStart 5))
          = some (.throw .runtimeError, v') ∧ v'.s.calls = v.s.calls.take 4 := by
  obtain ⟨fuel, info, v, h⟩ := demo_returns prm htol htau hr
  have hm : 3 < callsMade (demoStart 5) v := by
    by_contra hm
    obtain ⟨v', h1, -⟩ := C119_late_failure h (not_lt.1 hm)
    obtain ⟨w', h2, -⟩ := break_run prm fuel
    have h3 := (C117_any_host (breaksAt 3 demoHost)).2 (demoCfg demoOcc) prm fuel 0 breakStart
    rw [h2, show withoutLog breakStart = withCount (demoStart 5) from rfl, h1] at h3
    simp at h3
  obtain ⟨v', h1, -, h3, -⟩ := C119_failure h hm
  exact ⟨fuel, info, v, h, hm, v', h1, h3⟩

/-- runs with different limits -/
example (prm : NlcgParams ℝ) (htol : 0 < prm.tol) (m m' : ℤ) (hm : m ≤ m') :
    ∃ fuel o v o' v', solve demoHost (demoCfg demoOcc) { prm with maxiter := m } fuel 0 (demoStart 5) = some (o, v) ∧
      solve demoHost (demoCfg demoOcc) { prm with maxiter := m' } fuel 0 (demoStart 5) = some (o', v') ∧
      v.trace <+: v'.trace := by
  have hN := fun k : ℤ => C30_run_ends_solver (w := demoStart 5) (prm := { prm with maxiter := k }) demo_settings.1
    demo_energies.1 (demo_start _ _ _) (by norm_num [demoCfg]) 0 (demo_bounded demoOcc) htol
  obtain ⟨N, hN1⟩ := hN m
  obtain ⟨N', hN2⟩ := hN m'
  rcases hq : solve demoHost (demoCfg demoOcc) { prm with maxiter := m } (max N N') 0 (demoStart 5)
    with _ | ⟨o, v⟩
  · exact absurd hq (hN1 _ (le_max_left _ _) 0)
  rcases hq' : solve demoHost (demoCfg demoOcc) { prm with maxiter := m' } (max N N') 0 (demoStart 5)
    with _ | ⟨o', v'⟩
  · exact absurd hq' (hN2 _ (le_max_right _ _) 0)
  refine ⟨_, o, v, o', v', hq, hq', ?_⟩
  rcases C119_limit hm hq hq' with ⟨-, rfl⟩ | ⟨-, -, -, h⟩
  · exact List.prefix_rfl
  · exact h

end Nlcg
