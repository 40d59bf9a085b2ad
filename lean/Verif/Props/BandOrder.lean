import Verif.Proofs.BandOrder
import Verif.Props.Gauge

/-!
**C121**: the order in which the host lists its bands does not matter.
-/

namespace Nlcg
open Spec Matrix ComplexOrder

noncomputable section

variable {K : ℕ} {n b : Fin K → ℕ} {η ξ : Type} {host' : Host η n b} {host : Host ξ n b} {c : Cfg n b}
  {prm : NlcgParams ℝ} {fuel rank : ℕ}

theorem protocol_settled {l : List (HostCall n b)} {o : Option (Evaluated n b)} (h : Protocol l o) : Settled l := by
  induction h with
  | start => intro X; simp [tells]
  | evaluate cs l p _ _ => intro X; simp [evaluation, tells, List.getLast?_append]
  | print cs p _ ih => exact settled_print.2 ih

/-- **C121.** Two runs from the same orbitals, listed in another order and with other phases, have the same outcome, step
log, record, free energies and history, provided that no pseudo-Hamiltonian on the way has a repeated eigenvalue. The
host receives the same calls up to the order of the bands and phases. After a normal return the orbitals and the
occupations are those of the other run, in one and the same order. -/
theorem C121_same_run (H : BandHost host' host) (hs' : Setting host' c) (hs : Setting host c) (ht : EighTotal c.la)
    (ho : EighSorted c.la) (hocc : OccFair c)
    {w : NState ℝ (SState η n b)} {w' : NState ℝ (SState ξ n b)} {a : Arrangement b} (ha : IsPhase a.phase)
    (hR : H.R a a.order w.s.h w'.s.h) (hcalls : w.s.calls = []) (h0 : SStart host c w'.s)
    (hw : w.file = w'.file ∧ w.info = w'.info ∧ w.force = w'.force ∧ w.trace = w'.trace)
    (hm : MeetsSimple host c prm fuel rank w') :
    (solve host' c prm fuel rank w).map observed = (solve host c prm fuel rank w').map observed ∧
    ∀ r x r' x', solve host' c prm fuel rank w = some (r, x) → solve host c prm fuel rank w' = some (r', x') →
      List.Forall₂ BandCall x.s.calls x'.s.calls ∧
      ∃ (u : Arrangement b) (σ : BandPerm b), IsPhase u.phase ∧ host'.C x.s.h = rearranged u (host.C x'.s.h) ∧
        host'.fn x.s.h = reordered σ (host.fn x'.s.h) ∧ (∀ info, r = .ok info → σ = u.order) := by
  set w1 : NState ℝ (SState η n b) := { w with s := { w.s with F := w'.s.F, S := w'.s.S } } with hw1
  have h01 : SStart host' c w1.s := by
    refine ⟨hcalls, fun k => ?_⟩
    show SOrtho (c.S k) (host'.C w.s.h k)
    rw [H.C hR, rearranged_eq]
    exact (sOrtho_uni (uni_arr (ha k))).2 (h0.2 k)
  have h1 := nlcg_rel_pair (orderSim H hs' hs ht ho hocc) prm fuel rank (w := w1) (w' := w')
    ⟨⟨a, a.order, ha, ⟨hR, rfl, rfl, by rw [h0.1, show w1.s.calls = [] from hcalls]; exact .nil⟩, fun _ => rfl⟩, hw⟩
  rw [order_simple hs' prm fuel rank w1 h01, order_simple hs prm fuel rank w' h0] at h1
  have b' := simple_below host' c prm fuel rank w1
  have b := simple_below host c prm fuel rank w'
  have h2 := C55_no_uninitialised_read (prm := prm) (fuel := fuel) (rank := rank) host' c
    w1 w ⟨rfl, rfl, rfl, rfl, rfl, rfl⟩
  have h3 := fun info x => C55_complete (prm := prm) (fuel := fuel) (rank := rank) (w := w1) (w' := x) host' c hcalls info
  unfold MeetsSimple at hm
  generalize nlcg (simpleOps host' c) prm fuel rank w1 = q' at *
  generalize nlcg (simpleOps host c) prm fuel rank w' = q at *
  generalize solve host' c prm fuel rank w1 = p1 at *
  generalize solve host' c prm fuel rank w = p' at *
  generalize solve host c prm fuel rank w' = p at *
  obtain rfl : q = p := by
    rcases b with ⟨z, hz⟩ | h
    · exact absurd hz (hm z)
    · exact h
  cases h1 with
  | none =>
    obtain rfl : none = p1 := by
      rcases b' with ⟨z, hz⟩ | h
      · simp at hz
      · exact h
    rcases h2 with ⟨-, rfl⟩ | ⟨o, v1, v2, e1, -⟩
    · simp
    · simp at e1
  | @some x y h1 =>
    obtain ⟨⟨⟨u, σ, hu, hR, hσ⟩, f1, f2, f3, f4⟩, -, hv⟩ := h1
    obtain ⟨r, x⟩ := x
    obtain ⟨r', y⟩ := y
    simp only at f1 f2 f3 f4 hR hv hσ
    have hrr : r = r' := by cases hv <;> simp_all
    obtain rfl : some (r, x) = p1 := by
      rcases b' with ⟨z, hz⟩ | h
      · simp only [Option.some.injEq, Prod.mk.injEq] at hz
        exact absurd (by rw [← hrr, hz.1]) (hm y)
      · exact h
    rcases h2 with ⟨h, -⟩ | ⟨o, v1, v2, e1, rfl, hs, -⟩
    · simp at h
    obtain ⟨s1, s2, s3, s4, s5, s6⟩ := hs
    simp only [Option.some.injEq, Prod.mk.injEq] at e1
    obtain ⟨rfl, rfl⟩ := e1
    refine ⟨?_, ?_⟩
    · simp [observed, hrr, s3, s4, s5, s6, f1, f2, f3, f4]
    · rintro _ _ _ _ ⟨⟩ ⟨⟩
      rw [s1, s2]
      refine ⟨hR.calls, u, σ, hu, H.C hR.R, H.fn hR.R, ?_⟩
      rintro info rfl
      obtain ⟨p, hp⟩ := h3 info x rfl
      exact hσ (protocol_settled hp)

/-- **C121.** The occupations that the library computes do not depend on the order of the bands. -/
theorem C121_occupations (useNewton : Bool) (t : SmearType) (p : OccParams ℝ) {key : Fin K → Key}
    (hk : Function.Injective key) (wk : Fin K → ℝ) (σ : BandPerm b) (e : Bands b) :
    searchOcc useNewton t p key wk (reordered σ e)
      = (do let r ← searchOcc useNewton t p key wk e; pure (r.1, reordered σ r.2)) := by
  rw [searchOcc_global, searchOcc_global, globalSearch_perm useNewton _ _ p hk wk e (reordered σ e) fun k => ?_]
  · cases globalSearch useNewton (smearFns .gauss) (smearFns t) p (oneRank key wk e) <;> rfl
  · exact Equiv.Perm.ofFn_comp_perm (σ k) (e k)

end

/-! ## The assumptions can be met -/

theorem density_arr {N B : ℕ} (X : Mat N B) (f : Fin B → ℝ) {σ : Equiv.Perm (Fin B)} {v : Fin B → ℂ}
    (hv : ∀ i, ‖v i‖ = 1) :
    X * arr σ v * (diagonal fun i => (f (σ i) : ℂ)) * (X * arr σ v)ᴴ = X * (diagonal fun i => (f i : ℂ)) * Xᴴ := by
  have h1 : arr σ v * (diagonal fun i => (f (σ i) : ℂ)) = (diagonal fun i => (f i : ℂ)) * arr σ v := by
    ext i j
    rw [mul_diagonal, diagonal_mul, arr]
    split
    · next h => rw [h, mul_comm]
    · simp
  have h2 : arr σ v * (arr σ v)ᴴ = 1 := mul_eq_one_comm.1 (uni_arr hv)
  rw [conjTranspose_mul, Matrix.mul_assoc X, h1, ← Matrix.mul_assoc, ← Matrix.mul_assoc, Matrix.mul_assoc _ (arr σ v), h2,
    Matrix.mul_one]

/-- orbitals in any order, with any phases, and the matching occupations: the linear host does not see it -/
noncomputable def linearOrder {K : ℕ} {n b : Fin K → ℕ} (H : (k : Fin K) → Mat (n k) (n k)) (wk : Fin K → ℝ) :
    BandHost (linearHost (b := b) H wk) (linearHost H wk) where
  R a σ h x := IsPhase a.phase ∧ h.C = rearranged a x.C ∧ h.fn = reordered σ x.fn
  C h := h.2.1
  fn h := h.2.2
  setC X u hu h := ⟨rfl, hu, rfl, h.2.2⟩
  setFn f τ h := ⟨rfl, h.1, h.2.1, rfl⟩
  compute hR := ⟨rfl, hR⟩
  hphi := by
    rintro a h x _ _ hR ⟨⟩ ⟨⟩
    funext k
    show H k * h.C k = rearranged a (fun k => H k * x.C k) k
    rw [rearranged_eq, hR.2.1, rearranged_eq, Matrix.mul_assoc]
  ek := by
    rintro a h x _ _ hR ⟨⟩ ⟨⟩
    funext k i
    show (((h.C k)ᴴ * (H k * h.C k)) i i).re = (((x.C k)ᴴ * (H k * x.C k)) (a.order k i) (a.order k i)).re
    rw [hR.2.1, rearranged_eq, conjTranspose_mul, ← Matrix.mul_assoc (H k), Matrix.mul_assoc, ← Matrix.mul_assoc (x.C k)ᴴ,
      ← Matrix.mul_assoc, arr_apply, mul_comm (star _), mul_assoc, phase_star (hR.1 k), mul_one]
  setMu mu h := ⟨rfl, h⟩
  energy {a h x} hR := by
    refine ⟨congrArg some ?_, hR⟩
    unfold linearEnergy
    refine Finset.sum_congr rfl fun k _ => ?_
    rw [hR.2.1, hR.2.2, rearranged_eq]
    exact congrArg (fun A => wk k * (trace (H k * A)).re) (density_arr (x.C k) (x.fn k) (hR.1 k))
  print h := ⟨rfl, h⟩

/-- two bands: listed in the other order, with any phases -/
example (v : Phases tieB) (hv : IsPhase v) (prm : NlcgParams ℝ) (hm : 1 ≤ prm.maxiter) (hr : prm.restart ≠ 0)
    (fuel rank : ℕ) :
    (solve pairHost (pairCfg (sorted refLapack)) prm fuel rank
        (pairStart (rearranged ⟨fun _ => Equiv.swap 0 1, v⟩ fun _ => tieX))).map observed
      = (solve pairHost (pairCfg (sorted refLapack)) prm fuel rank (pairStart fun _ => tieX)).map observed :=
  (C121_same_run (c := pairCfg (sorted refLapack)) (a := ⟨fun _ => Equiv.swap 0 1, v⟩) (linearOrder pairH fun _ => 1)
    (pair_setting (sorted_ok refLapack_ok)) (pair_setting (sorted_ok refLapack_ok))
    (sorted_total refLapack_total) (sorted_sorted refLapack) (fun _ _ => rfl) hv
    (w := pairStart (rearranged ⟨fun _ => Equiv.swap 0 1, v⟩ fun _ => tieX)) (w' := pairStart fun _ => tieX)
    ⟨hv, rfl, rfl⟩ rfl (pair_start _)
    ⟨rfl, rfl, rfl, rfl⟩
    (meetsSimple_frozen (pair_setting (sorted_ok refLapack_ok)) (sorted_total refLapack_total) rfl
      (fun _ => ⟨by simp [pairCfg, tieCfg], by simp [pairCfg, tieCfg, Res.Clean]⟩) hm hr _ (pair_start _)
      pair_distinct)).1

end Nlcg
