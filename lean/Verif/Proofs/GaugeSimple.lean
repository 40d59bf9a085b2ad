import Verif.Proofs.Gauge
import Verif.Props.Driver
import Verif.Proofs.MemSolverRun
import Verif.Proofs.LinearHost
import Mathlib.Data.Fin.Tuple.Sort

/-! Runs that never meet a repeated pseudo-energy, a LAPACK that sorts, and a host in all gauges. -/

namespace Nlcg
open Spec Matrix

variable {K : ℕ} {n b : Fin K → ℕ} {η ξ : Type} {host : Host η n b} {c : Cfg n b} {prm : NlcgParams ℝ} {fuel rank : ℕ}

/-- with at most one band per k-point no level is repeated -/
theorem simpleOps_one (host : Host η n b) (c : Cfg n b) (hb : ∀ k, b k ≤ 1) : simpleOps host c = solverOps host c := by
  have : ∀ pt dir t, SimpleStep c pt dir t := fun pt dir t k i j _ => by
    have := hb k
    exact Fin.ext (by omega)
  simp only [simpleOps, this, if_true]
  rfl

theorem solve_not_ub (ho : ∀ ek, c.occ ek ≠ .ub ∧ (c.occ ek).Clean) (hm : 1 ≤ prm.maxiter) (hr : prm.restart ≠ 0)
    (w : NState ℝ (SState η n b)) (z) : solve host c prm fuel rank w ≠ some (.ub, z) := fun h =>
  (C32_defined_partial _ (solver_clean host c fun ek => (ho ek).2) (solver_quiet host c)
    (solver_defined host c fun ek => (ho ek).1) prm hm hr fuel rank w z .ub h).1 rfl

theorem meetsSimple_one (hb : ∀ k, b k ≤ 1) (ho : ∀ ek, c.occ ek ≠ .ub ∧ (c.occ ek).Clean) (hm : 1 ≤ prm.maxiter)
    (hr : prm.restart ≠ 0) (w : NState ℝ (SState η n b)) : MeetsSimple host c prm fuel rank w := by
  intro z
  rw [simpleOps_one host c hb]
  exact solve_not_ub ho hm hr w z

/-! ## No step of the pseudo-Hamiltonian -/

/-- the eigenvalues of a diagonal matrix with distinct entries are distinct -/
theorem eigh_injective {la : Lapack} (hla : LapackOk la) (ht : EighTotal la) {B : ℕ} {e : Fin B → ℝ}
    (he : Function.Injective e) : Function.Injective (la.heevd (makeDiag e)).1.1 := by
  have hA := makeDiag_hermitian e
  obtain ⟨h1, h2⟩ := hla.eigen (makeDiag e) hA (ht _ hA)
  exact List.nodup_ofFn.1 ((rotate_perm h2 h1).nodup_iff.2 (List.nodup_ofFn.2 he))

theorem Keeps.andOk {σ β : Type} {I E : σ → Prop} {P Q : β → σ → Prop} {q : Res β × σ} (h : Keeps I E P q)
    (hQ : ∀ r s, q = (.ok r, s) → Q r s) : Keeps I E (fun r s => P r s ∧ Q r s) q :=
  ⟨h.any, h.soft, fun r hr => ⟨h.ok r hr, hQ r q.2 (by rw [← hr])⟩⟩

theorem Keeps.monoOk {σ β : Type} {I E : σ → Prop} {P Q : β → σ → Prop} {q : Res β × σ} (h : Keeps I E P q)
    (hQ : ∀ r s, P r s → Q r s) : Keeps I E Q q :=
  ⟨h.any, h.soft, fun r hr => hQ _ _ (h.ok r hr)⟩

theorem solverSetup_ek {r : Point n b} {s s' : SState η n b} (h : solverSetup host c s = (.ok r, s')) :
    ∃ h1, host.compute s.h = (some (), h1) ∧ r.ek = host.ek h1 := by
  rw [solverSetup, hostCall_bind] at h
  rcases hc : host.compute s.h with ⟨_ | u, h1⟩ <;> simp only [hc] at h
  · simp at h
  rw [SM.get_bind, SM.lift_bind] at h
  rcases hocc : c.occ (host.ek h1) with ⟨mu, f⟩ | e | _ | _ <;>
    simp only [hocc, Prod.mk.injEq, reduceCtorEq, false_and] at h
  rw [SM.get_bind, SM.bind_apply] at h
  rcases he : evaluate host c (host.C h1) f (host.ek h1) mu
      { h := h1, F := s.F, S := s.S, calls := s.calls ++ [HostCall.compute] } with ⟨_ | _ | _ | _, s1⟩ <;>
    simp only [he, Prod.mk.injEq, reduceCtorEq, false_and] at h
  rw [SM.get_bind, SM.pure_apply] at h
  simp only [Prod.mk.injEq, Res.ok.injEq] at h
  obtain ⟨rfl, rfl⟩ := h
  exact ⟨h1, rfl, rfl⟩

/-- the levels of the point are distinct -/
def Distinct (e : Bands b) : Prop := ∀ k, Function.Injective (e k)

theorem deltaEta_zero {B : ℕ} (hij : Mat B B) (e : Fin B → ℝ) (wk : ℝ) : deltaEta 0 hij e wk = 0 := by
  ext i j
  simp [deltaEta]

theorem frozen_rule (hs : Setting host c) (ht : EighTotal c.la) (hk : c.kappa = 0) :
    RunRule (solverOps host c)
      (fun s => SStart host c s ∧ ∀ h, host.compute s.h = (some (), h) → Distinct (host.ek h))
      (SInv host c) (SEnd c) (fun pt s => SAt host c pt s ∧ Distinct pt.ek)
      (fun r s => Occ host c r.X r.ek r.mu s ∧ Distinct r.ek)
      (fun pt dir sl => SDir c pt dir sl ∧ Distinct pt.ek ∧ ∀ k, dir.zeta k = 0) where
  weaken := (solver_rule hs).weaken
  construct := fun s h => by
    have a := (solver_rule hs).construct s h.1
    refine ⟨a.any, fun hs => ?_, fun _ _ => trivial⟩
    exact ⟨a.soft hs, h.2⟩
  setup := fun s h => by
    refine (((solver_rule hs).setup s h.1).andOk (Q := fun pt _ => Distinct pt.ek) fun r s' e => ?_).monoOk
      fun _ _ h => ⟨h.1.1, h.1.2, h.2⟩
    obtain ⟨h1, c1, c2⟩ := solverSetup_ek e
    rw [c2]
    exact h.2 h1 c1
  restarted := fun pt s hI hJ => by
    refine (((solver_rule hs).restarted pt s hI hJ.1).andOk (Q := fun q _ => ∀ k, q.2.zeta k = 0) fun r s' e k => ?_).monoOk
      fun _ _ h => ⟨⟨h.1.1, hJ.2⟩, h.1.2, hJ.2, h.2⟩
    cases e
    show deltaEta c.kappa _ _ _ = 0
    rw [hk, deltaEta_zero]
  conjugated := fun fr pt dir s pt0 sl0 hI hJ hD => by
    refine (((solver_rule hs).conjugated fr pt dir s pt0 sl0 hI hJ.1 hD.1).andOk
      (Q := fun q _ => ∀ k, q.2.2.zeta k = 0) fun r s' e k => ?_).monoOk
      fun _ _ h => ⟨⟨h.1.1, hJ.2⟩, fun h0 => ⟨h.1.2 h0, hJ.2, h.2⟩⟩
    cases e
    show addM (rotateeta (dir.zeta k) _) (deltaEta c.kappa _ _ _) _ _ = 0
    rw [hk, deltaEta_zero, hD.2.2]
    simp [addM, rotateeta, innerM, transformM]
  geo := fun pt dir sl t s hI hD => by
    refine (((solver_rule hs).geo pt dir sl t s hI hD.1).andOk (Q := fun r _ => Distinct r.ek) fun r s' e k => ?_)
    obtain ⟨g, mu, f, h1, -, -, rfl⟩ := solverGeo_ok e
    have h2 := h1 k
    rw [hD.1.eta, hD.2.2, geodesicUs] at h2
    have h3 : advanceEta t (makeDiag (pt.ek k)) 0 = makeDiag (pt.ek k) := by simp [advanceEta, addM]
    rw [h3, eigh_eq ht (makeDiag_hermitian _)] at h2
    have h4 := eigh_injective hs.lapack ht (hD.2.1 k)
    have : (g k).ek = (c.la.heevd (makeDiag (pt.ek k))).1.1 := by
      rcases hx : advanceX c.la t (pt.X k) (dir.zx k) (c.la.heevd (makeDiag (pt.ek k))).1.2 (c.S k) with x | _ | _ | _ <;>
        simp [hx] at h2
      rw [← h2]
    show Function.Injective (g k).ek
    rw [this]
    exact h4
  refresh := fun r s hI hG => by
    refine (((solver_rule hs).refresh r s hI hG.1).andOk (Q := fun p _ => Distinct p.ek) fun p s' e => ?_)
    cases e
    exact hG.2
  gather := fun pt s hI hJ => ((solver_rule hs).gather pt s hI hJ.1).monoOk fun _ _ h => ⟨h, hJ.2⟩
  print := fun pt s hI hJ => ((solver_rule hs).print pt s hI hJ.1).monoOk fun _ _ h => ⟨h, hJ.2⟩

/-- With `kappa = 0` the levels do not move. -/
theorem meetsSimple_frozen (hs : Setting host c) (ht : EighTotal c.la) (hk : c.kappa = 0)
    (ho : ∀ ek, c.occ ek ≠ .ub ∧ (c.occ ek).Clean) (hm : 1 ≤ prm.maxiter) (hr : prm.restart ≠ 0)
    (w : NState ℝ (SState η n b)) (h0 : SStart host c w.s)
    (hd : ∀ h, host.compute w.s.h = (some (), h) → Distinct (host.ek h)) : MeetsSimple host c prm fuel rank w := by
  intro z
  have := (frozen_rule hs ht hk).congr_ops (geo' := (simpleOps host c).geo) (setup' := solverSetup host c)
    (restarted' := solverRestarted host c) (conjugated' := solverConjugated host c) (refresh' := solverRefresh host)
    ?_ (fun _ _ _ _ => rfl) (fun _ _ _ _ _ _ => rfl) (fun _ _ _ _ => rfl) (fun _ _ => rfl) prm fuel rank w ⟨h0, hd⟩
  · show nlcg { solverOps host c with geo := (simpleOps host c).geo } prm fuel rank w ≠ _
    exact this ▸ solve_not_ub ho hm hr w z
  · intro pt dir sl t s _ hD
    refine (if_pos fun k => ?_).symm
    rw [hD.1.eta, hD.2.2, show advanceEta t (makeDiag (pt.ek k)) 0 = makeDiag (pt.ek k) by simp [advanceEta, addM]]
    exact eigh_injective hs.lapack ht (hD.2.1 k)

/-! ## A LAPACK with ascending eigenvalues -/

/-- the eigenvalues in ascending order, with their vectors -/
noncomputable def sorted (la : Lapack) : Lapack :=
  { la with heevd := fun A => (((la.heevd A).1.1 ∘ Tuple.sort (la.heevd A).1.1,
      (la.heevd A).1.2.submatrix id (Tuple.sort (la.heevd A).1.1)), (la.heevd A).2) }

theorem sorted_total {la : Lapack} (h : EighTotal la) : EighTotal (sorted la) := fun A hA => h A hA

theorem sorted_sorted (la : Lapack) : EighSorted (sorted la) := fun A _ => Tuple.monotone_sort (la.heevd A).1.1

theorem sorted_ok {la : Lapack} (h : LapackOk la) : LapackOk (sorted la) where
  chol := h.chol
  solve := h.solve
  eigen A hA h0 := by
    obtain ⟨h1, h2⟩ := h.eigen A hA h0
    set f := Tuple.sort (la.heevd A).1.1
    show ((la.heevd A).1.2.submatrix id f)ᴴ * (la.heevd A).1.2.submatrix id f = 1 ∧ A * (la.heevd A).1.2.submatrix id f
      = (la.heevd A).1.2.submatrix id f * diagonal fun i => (((la.heevd A).1.1 ∘ f) i : ℂ)
    refine ⟨?_, ?_⟩
    · ext i j
      have := congrFun (congrFun h1 (f i)) (f j)
      simp only [mul_apply, conjTranspose_apply, submatrix_apply, id_eq, one_apply, f.injective.eq_iff] at this ⊢
      exact this
    · ext i j
      have := congrFun (congrFun h2 i) (f j)
      rw [mul_diagonal] at this ⊢
      simp only [mul_apply, submatrix_apply, id_eq, Function.comp_apply] at this ⊢
      exact this

/-! ## Non-interacting electrons in all gauges -/

theorem linear_ek_phase {N B : ℕ} (H : Mat N N) (X : Mat N B) {v : Fin B → ℂ} (hv : ∀ i, ‖v i‖ = 1) (i : Fin B) :
    ((X * diagonal v)ᴴ * (H * (X * diagonal v))) i i = (Xᴴ * (H * X)) i i := by
  rw [conjTranspose_mul, diagonal_conjTranspose, ← Matrix.mul_assoc H, Matrix.mul_assoc, ← Matrix.mul_assoc Xᴴ,
    diagonal_mul, mul_diagonal, Pi.star_apply, mul_comm, mul_assoc, mul_comm (v i), phase_star hv, mul_one]

theorem density_phase {N B : ℕ} (X : Mat N B) (f : Fin B → ℝ) {v : Fin B → ℂ} (hv : ∀ i, ‖v i‖ = 1) :
    X * diagonal v * (diagonal fun i => (f i : ℂ)) * (X * diagonal v)ᴴ = X * (diagonal fun i => (f i : ℂ)) * Xᴴ := by
  rw [conjTranspose_mul, diagonal_conjTranspose]
  have : diagonal v * (diagonal fun i => (f i : ℂ)) * diagonal (star v) = diagonal fun i => (f i : ℂ) := by
    rw [diagonal_mul_diagonal, diagonal_mul_diagonal]
    congr 1
    funext i
    rw [Pi.star_apply, mul_comm (v i), mul_assoc, mul_comm (v i), phase_star hv, mul_one]
  calc _ = X * (diagonal v * (diagonal fun i => (f i : ℂ)) * diagonal (star v)) * Xᴴ := by simp only [Matrix.mul_assoc]
    _ = _ := by rw [this]

theorem linearEnergy_phase (H : (k : Fin K) → Mat (n k) (n k)) (wk : Fin K → ℝ) (X : Orbitals n b) (f : Bands b)
    {v : Phases b} (hv : IsPhase v) : linearEnergy H wk (rephase v X) f = linearEnergy H wk X f := by
  unfold linearEnergy
  refine Finset.sum_congr rfl fun k _ => ?_
  rw [rephase, density_phase _ _ (hv k)]

noncomputable def linearGauge (H : (k : Fin K) → Mat (n k) (n k)) (wk : Fin K → ℝ) :
    GaugeHost (linearHost (b := b) H wk) (linearHost H wk) where
  R v h x := IsPhase v ∧ h.C = rephase v x.C ∧ h.fn = x.fn ∧ h.ek = x.ek
  C h := h.2.1
  fn h := h.2.2.1
  ek h := h.2.2.2
  setC X u hu h := ⟨rfl, hu, rfl, h.2.2⟩
  setFn f h := ⟨rfl, h.1, h.2.1, rfl, h.2.2.2⟩
  compute {v h x} hR := by
    refine ⟨rfl, hR.1, hR.2.1, hR.2.2.1, ?_⟩
    funext k i
    show (((h.C k)ᴴ * (H k * h.C k)) i i).re = (((x.C k)ᴴ * (H k * x.C k)) i i).re
    rw [hR.2.1, rephase, linear_ek_phase _ _ (hR.1 k)]
  hphi := by
    rintro v h x _ _ hR ⟨⟩ ⟨⟩
    funext k
    show H k * h.C k = H k * x.C k * diagonal (v k)
    rw [hR.2.1, rephase, Matrix.mul_assoc]
  setMu mu h := ⟨rfl, h⟩
  energy {v h x} hR := by
    refine ⟨?_, hR⟩
    refine congrArg some ?_
    rw [hR.2.1, hR.2.2.1, linearEnergy_phase _ _ _ _ hR.1]
  print h := ⟨rfl, h⟩

end Nlcg
