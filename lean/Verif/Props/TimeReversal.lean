import Verif.Proofs.TimeReversalRef
import Verif.Props.Represent

/-!
# C93: time reversal

`reversedHost σ host` and `reversedCfg σ c` (`Spec/TimeReversal.lean`): the k-points marked by `σ` are stored as
their time-reversed partners, that is, all their matrices are complex conjugated.
-/

namespace Nlcg
open Spec Matrix

variable {K L : ℕ} {n b : Fin K → ℕ} {n' : Fin L → ℕ} {η ξ : Type} {e : Fin L → Fin K}
  {W : (k : Fin L) → Mat (n' k) (n (e k))} {prm : NlcgParams ℝ} {fuel rank : ℕ}

/-- **C93.** Replacing any of the k-points by their time-reversed partners does not change the run: the outcome,
step log, record, free energies and history are the same, and the host ends in the same state (in which its
orbitals are read as the complex conjugates at the k-points that were replaced). -/
theorem C93_time_reversal (σ : Fin K → Bool) (host : Host η n b) {c : Cfg n b} (hla : LapackReal c.la)
    (w : NState ℝ (SState η n b)) :
    (solve (reversedHost σ host) (reversedCfg σ c) prm fuel rank w).map observed
      = (solve host c prm fuel rank w).map observed ∧
    ∀ r v r' v', solve (reversedHost σ host) (reversedCfg σ c) prm fuel rank w = some (r, v) →
      solve host c prm fuel rank w = some (r', v') → v.s.h = v'.s.h := by
  have h1 := nlcg_rel (revSim hla σ host) prm fuel rank (w := w) (w' := w)
    ⟨⟨rfl, rfl, rfl⟩, rfl, rfl, rfl, rfl⟩
  unfold solve
  cases hq : nlcg (solverOps (reversedHost σ host) (reversedCfg σ c)) prm fuel rank w with
  | none =>
    rw [hq] at h1
    cases hp : nlcg (solverOps host c) prm fuel rank w with
    | none => exact ⟨rfl, by rintro _ _ _ _ ⟨⟩⟩
    | some y => rw [hp] at h1; cases h1
  | some x =>
    rw [hq] at h1
    cases hp : nlcg (solverOps host c) prm fuel rank w with
    | none => rw [hp] at h1; cases h1
    | some y =>
      rw [hp] at h1
      cases h1 with
      | some h1 =>
      obtain ⟨⟨hR, f1, f2, f3, f4⟩, -, hv⟩ := h1
      obtain ⟨r, v⟩ := x
      obtain ⟨o, v'⟩ := y
      simp only at f1 f2 f3 f4 hR hv
      have hro : r = o := by cases hv <;> simp_all
      refine ⟨?_, ?_⟩
      · simp [observed, hro, f1, f2, f3, f4]
      · rintro _ _ _ _ ⟨⟩ ⟨⟩
        exact hR.1

/-- **C93.** A set of k-points that was reduced by time reversal (and by the symmetries of C76) gives the same run
as the full set, when the weights of the k-points that were left out are added to those of their partners. -/
theorem C93_reduced_set (σ : Fin L → Bool) {host' : Host η n' (copies b e)} {host : Host ξ n b}
    {c' : Cfg n' (copies b e)} {c : Cfg n b} (hla : LapackReal c.la)
    (H : SameHost e W (reversedHost σ host') host) (hc : SameSystem e W (reversedCfg σ c') c)
    {w : NState ℝ (SState η n' (copies b e))} {w' : NState ℝ (SState ξ n b)} (hR : H.R w.s.h w'.s.h)
    (hw : w.file = w'.file ∧ w.info = w'.info ∧ w.force = w'.force ∧ w.trace = w'.trace) :
    (solve host' c' prm fuel rank w).map observed = (solve host c prm fuel rank w').map observed ∧
    ∀ r v r' v', solve host' c' prm fuel rank w = some (r, v) → solve host c prm fuel rank w' = some (r', v') →
      H.R v.s.h v'.s.h ∧ ∀ l, host'.C v.s.h l = cj (σ l) (W l * host.C v'.s.h (e l)) := by
  have hla' : LapackReal c'.la := by
    have h := hc.la
    simp only [reversedCfg] at h
    rwa [h]
  obtain ⟨h1, h2⟩ := C93_time_reversal (prm := prm) (fuel := fuel) (rank := rank) σ host' hla' w
  obtain ⟨h3, h4⟩ := C76_same_run (prm := prm) (fuel := fuel) (rank := rank) H hc hR hw
  refine ⟨h1.symm.trans h3, fun r v r' v' hv hv' => ?_⟩
  obtain ⟨⟨r1, v1⟩, hq⟩ : ∃ x, solve (reversedHost σ host') (reversedCfg σ c') prm fuel rank w = some x := by
    rw [hv] at h1
    cases hq : solve (reversedHost σ host') (reversedCfg σ c') prm fuel rank w with
    | none => rw [hq] at h1; cases h1
    | some x => exact ⟨x, rfl⟩
  have h5 := h2 _ _ _ _ hq hv
  obtain ⟨h6, h7⟩ := h4 _ _ _ _ hq hv'
  rw [h5] at h6 h7
  refine ⟨h6, fun l => ?_⟩
  rw [← h7 l]
  exact (cj_cj _).symm

/-- **C93.** Real orbitals stay real: if the host has time-reversal symmetry, overlap and preconditioner are real
and the run starts from a state that is its own time-reversed partner, then it ends in such a state, with real
orbitals. -/
theorem C93_real_stays_real {host : Host η n b} {c : Cfg n b} (hla : LapackReal c.la) (H : TimeSymmetric host)
    (hw : ∀ k, c.wk k ≠ 0) (hS : ∀ k, cj true (c.S k) = c.S k) (hP : ∀ k, cj true (c.P k) = c.P k)
    {w : NState ℝ (SState η n b)} (hR : H.R w.s.h w.s.h) {r : Res (Info ℝ)} {v : NState ℝ (SState η n b)}
    (hv : solve host c prm fuel rank w = some (r, v)) :
    H.R v.s.h v.s.h ∧ ∀ k i j, (host.C v.s.h k i j).im = 0 := by
  have hc : SameSystem (fun k : Fin K => k) (fun k => (1 : Mat (n k) (n k))) (reversedCfg (fun _ => true) c) c :=
    { isometry := fun k => by simp
      weights := fun k => by simp [reversedCfg, Finset.filter_eq']
      nonzero := ⟨hw, hw⟩
      S := fun k => by simp [reversedCfg, hS]
      P := fun k => by simp [reversedCfg, hP]
      occ := fun x => by
        show c.occ x = _
        cases c.occ x <;> rfl
      la := rfl, t := rfl, T := rfl, kappa := rfl, mo := rfl }
  obtain ⟨h1, h2⟩ := (C93_reduced_set (fun _ => true) hla H.same hc hR ⟨rfl, rfl, rfl, rfl⟩).2 _ _ _ _ hv hv
  refine ⟨h1, fun k i j => ?_⟩
  have h3 := congrFun (congrFun (h2 k) i) j
  simp only [Matrix.one_mul, cj, if_true, map_apply] at h3
  exact Complex.conj_eq_iff_im.1 h3.symm

/-! ## The assumptions can be met -/

/-- `evenLapack` (`Proofs/TimeReversalRef.lean`) keeps the contract of LAPACK and respects conjugation. -/
example : LapackReal evenLapack ∧ LapackOk evenLapack ∧ EighTotal evenLapack :=
  ⟨evenLapack_real, evenLapack_ok, evenLapack_total⟩

/-- a Hamiltonian that is not real -/
def twistH : (k : Fin 1) → Mat (demoN k) (demoN k) := fun _ => !![1, Complex.I; -Complex.I, 2]

/-- one k-point that stands for two -/
noncomputable def reducedCfg : Cfg demoN demoB := { demoCfg demoSearch with la := evenLapack }

/-- both k-points -/
noncomputable def fullCfg : Cfg (fun _ : Fin 2 => 2) (copies demoB fun _ => 0) :=
  { la := evenLapack, t := .gauss, T := 300, kappa := 3 / 10, mo := 2, wk := ![1 / 2, 1 / 2],
    S := fun _ => 1, P := fun _ => 1,
    occ := searchOcc false .gauss { T := 300, occ := 2, ne := 1, tol := 1 / 10 ^ 11 }
      (fun l => toLex ((l : ℤ), 0)) ![1 / 2, 1 / 2],
    junk := fun _ => 7 }

/-- the second k-point is reversed -/
def partner : Fin 2 → Bool := ![false, true]

theorem full_same_system :
    SameSystem (fun _ : Fin 2 => (0 : Fin 1)) (fun _ => 1) (reversedCfg partner fullCfg) reducedCfg where
  isometry _ := by simp
  weights k := by
    fin_cases k
    norm_num [reversedCfg, fullCfg, reducedCfg, demoCfg, Fin.sum_univ_two, Finset.filter_true]
  nonzero := by
    refine ⟨fun k => by simp [reducedCfg, demoCfg], fun l => ?_⟩
    fin_cases l <;> norm_num [fullCfg, reversedCfg]
  S _ := by simp [reversedCfg, fullCfg, reducedCfg, demoCfg, cj_one]
  P _ := by simp [reversedCfg, fullCfg, reducedCfg, demoCfg, cj_one]
  occ x := C76_same_search false _ _ (fun a b _ => Subsingleton.elim a b)
    (fun a b h => by simpa [Fin.ext_iff] using h) (fun k => by
      fin_cases k
      norm_num [demoCfg, Fin.sum_univ_two, Finset.filter_true]) x
  la := rfl
  t := rfl
  T := rfl
  kappa := rfl
  mo := rfl

/-- the second Hamiltonian of the full set is another one -/
example : starH partner (fun _ : Fin 2 => (0 : Fin 1)) twistH 1 = !![1, -Complex.I; Complex.I, 2] ∧
    starH partner (fun _ : Fin 2 => (0 : Fin 1)) twistH 0 = !![1, Complex.I; -Complex.I, 2] := by
  constructor
  · ext i j
    fin_cases i <;> fin_cases j <;> simp [starH, partner, cj, twistH, Complex.conj_ofNat]
  · rfl

/-- orbitals with complex coefficients -/
noncomputable def reducedStart : NState ℝ (SState (LState demoN demoB) demoN demoB) :=
  { s := ⟨⟨fun _ => !![Complex.I; 0], fun _ => 0, fun _ _ => 1, fun _ _ => 0, 0⟩, 1, 2, []⟩, file := [],
    info := { vals := none, converged := false }, force := false, trace := [] }

/-- the same orbitals and their partners -/
noncomputable def fullStart : NState ℝ (SState (LState (fun _ : Fin 2 => 2) (copies demoB fun _ => 0)) (fun _ : Fin 2 => 2)
    (copies demoB fun _ => 0)) :=
  { s := ⟨⟨![!![Complex.I; 0], !![-Complex.I; 0]], fun _ => 0, fun _ _ => 1, fun _ _ => 0, 0⟩, 3, 4, []⟩, file := [],
    info := { vals := none, converged := false }, force := false, trace := [] }

/-- the full set gives the run of the reduced one -/
example (prm : NlcgParams ℝ) (fuel : ℕ) :
    (solve (linearHost (starH partner (fun _ : Fin 2 => (0 : Fin 1)) twistH) ![1 / 2, 1 / 2]) fullCfg prm fuel 0
      fullStart).map observed
    = (solve (linearHost twistH fun _ => 1) reducedCfg prm fuel 0 reducedStart).map observed := by
  refine (C93_reduced_set partner evenLapack_real (linearHost_star partner twistH fun k => ?_) full_same_system
    ?_ ⟨rfl, rfl, rfl, rfl⟩).1
  · fin_cases k
    norm_num [Fin.sum_univ_two, Finset.filter_true]
  · refine ⟨?_, ?_, rfl, rfl, rfl⟩
    · funext l
      fin_cases l
      · rfl
      · ext i j
        fin_cases i <;> fin_cases j <;> simp [fullStart, reducedStart, partner, cj]
    · funext l
      exact cj_zero.symm

/-- a real start with a real Hamiltonian -/
example (prm : NlcgParams ℝ) (fuel : ℕ) (r : Res (Info ℝ)) (v : NState ℝ (SState (LState demoN demoB) demoN demoB))
    (hv : solve demoHost reducedCfg prm fuel 0 (demoStart 5) = some (r, v)) :
    ∀ k i j, (demoHost.C v.s.h k i j).im = 0 := by
  have hH : ∀ k, cj true (demoH k) = demoH k := by
    intro k
    ext i j
    fin_cases i <;> fin_cases j <;> simp [cj, demoH, Complex.conj_ofNat]
  refine (C93_real_stays_real (host := demoHost) evenLapack_real (linearHost_symmetric hH _)
    (fun _ => one_ne_zero) (fun _ => cj_one) (fun _ => cj_one) ⟨?_, ?_, rfl, rfl, rfl⟩ hv).2
  · funext k
    ext i j
    fin_cases i <;> fin_cases j <;> simp [demoStart, cj]
  · funext k
    exact cj_zero.symm

end Nlcg
