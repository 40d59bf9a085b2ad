import Verif.Proofs.Represent
import Verif.Props.Solver

/-!
# C76: the run does not depend on how the system is described

`SameSystem e W c' c` and `SameHost e W host' host` (`Spec/Represent.lean`): k-point `l` of the primed input
is a copy of k-point `e l` of the other one in the basis given by `W l`, with a part of its weight.
-/

namespace Nlcg
open Spec Matrix

variable {K L : ℕ} {n b : Fin K → ℕ} {n' : Fin L → ℕ} {η ξ : Type} {e : Fin L → Fin K}
  {W : (k : Fin L) → Mat (n' k) (n (e k))} {host' : Host η n' (copies b e)} {host : Host ξ n b}
  {c' : Cfg n' (copies b e)} {c : Cfg n b} {prm : NlcgParams ℝ} {fuel rank : ℕ}

/-- **C76.** In exact arithmetic, two descriptions of a system (other order of k-points, a k-point replaced by
several equivalent ones that share its weight, other order of plane waves, another basis, additional plane
waves that do not contribute) give the same run: the same outcome, step log, record, free energies and
history, and the host is called in the same way throughout. The final orbitals are those of the other run in
the other description. -/
theorem C76_same_calls (H : SameHost e W host' host) (hc : SameSystem e W c' c)
    {w : NState ℝ (SState η n' (copies b e))} {w' : NState ℝ (SState ξ n b)} (hR : H.R w.s.h w'.s.h)
    (hw : w.file = w'.file ∧ w.info = w'.info ∧ w.force = w'.force ∧ w.trace = w'.trace) :
    (solve host' c' prm fuel rank w).map observed = (solve host c prm fuel rank w').map observed ∧
    ∀ r v r' v', solve host' c' prm fuel rank w = some (r, v) → solve host c prm fuel rank w' = some (r', v') →
      H.R v.s.h v'.s.h ∧ (∀ l, host'.C v.s.h l = W l * host.C v'.s.h (e l)) ∧
      ∃ calls, v.s.calls = w.s.calls ++ calls.map (expandCall e W) ∧ v'.s.calls = w'.s.calls ++ calls := by
  have h1 := nlcg_rel (copySim H w.s.calls w'.s.calls hc) prm fuel rank (w := w)
    (w' := { w' with s := { w'.s with F := w.s.F, S := w.s.S } }) ⟨⟨hR, ⟨rfl, rfl⟩, [], by simp, by simp⟩, hw⟩
  have h2 := C55_no_uninitialised_read (prm := prm) (fuel := fuel) (rank := rank) host c
    { w' with s := { w'.s with F := w.s.F, S := w.s.S } } w' ⟨rfl, rfl, rfl, rfl, rfl, rfl⟩
  unfold solve at h2 ⊢
  rcases h2 with ⟨e1, e2⟩ | ⟨o, v1, v2, e1, e2, hs, -⟩
  · rw [e1] at h1
    rw [e2]
    cases hq : nlcg (solverOps host' c') prm fuel rank w with
    | none => simp
    | some x => rw [hq] at h1; cases h1
  · rw [e1] at h1
    rw [e2]
    cases hq : nlcg (solverOps host' c') prm fuel rank w with
    | none => rw [hq] at h1; cases h1
    | some x =>
      rw [hq] at h1
      cases h1 with
      | some h1 =>
      obtain ⟨⟨hR, f1, f2, f3, f4⟩, -, hv⟩ := h1
      obtain ⟨r, v⟩ := x
      obtain ⟨s1, s2, s3, s4, s5, s6⟩ := hs
      simp only at f1 f2 f3 f4 hR hv
      have hro : r = o := by cases hv <;> simp_all
      refine ⟨?_, ?_⟩
      · simp [observed, hro, f1, f2, f3, f4, s3, s4, s5, s6]
      · rintro _ _ _ _ ⟨⟩ ⟨⟩
        have := s1 ▸ hR.1
        obtain ⟨l, e3, e4⟩ := hR.2.2
        exact ⟨this, fun l => congrFun (H.C this) l, l, e3, s2.trans e4⟩

/-- **C76** without the calls -/
theorem C76_same_run (H : SameHost e W host' host) (hc : SameSystem e W c' c)
    {w : NState ℝ (SState η n' (copies b e))} {w' : NState ℝ (SState ξ n b)} (hR : H.R w.s.h w'.s.h)
    (hw : w.file = w'.file ∧ w.info = w'.info ∧ w.force = w'.force ∧ w.trace = w'.trace) :
    (solve host' c' prm fuel rank w).map observed = (solve host c prm fuel rank w').map observed ∧
    ∀ r v r' v', solve host' c' prm fuel rank w = some (r, v) → solve host c prm fuel rank w' = some (r', v') →
      H.R v.s.h v'.s.h ∧ ∀ l, host'.C v.s.h l = W l * host.C v'.s.h (e l) := by
  obtain ⟨h1, h2⟩ := C76_same_calls (prm := prm) (fuel := fuel) (rank := rank) H hc hR hw
  exact ⟨h1, fun r v r' v' e1 e2 => ⟨(h2 r v r' v' e1 e2).1, (h2 r v r' v' e1 e2).2.1⟩⟩

/-- **C76.** The code's own search finds the same chemical potential for both descriptions, whatever keys the
k-points have. -/
theorem C76_same_search (useNewton : Bool) (t : SmearType) (p : OccParams ℝ) {key : Fin K → Key}
    {key' : Fin L → Key} (hk : Function.Injective key) (hk' : Function.Injective key') {wk : Fin K → ℝ}
    {wk' : Fin L → ℝ} (hw : ∀ k, ∑ l with e l = k, wk' l = wk k) (x : Bands b) :
    searchOcc useNewton t p key' wk' (spread e x)
      = (do let r ← searchOcc useNewton t p key wk x; pure (r.1, spread e r.2)) :=
  searchOcc_copies t p hk hk' hw x

/-! ## The assumptions can be met -/

section expand
variable (host) (s : Fin K → Fin L) (hs : ∀ k, e (s k) = k) (W)

/-- A host described in another way: `s k` is one of the copies of `k`. -/
noncomputable def expandHost : Host ξ n' (copies b e) where
  compute := host.compute
  setC X x := host.setC (fun k => hs k ▸ ((W (s k))ᴴ * X (s k) : Mat (n (e (s k))) (b (e (s k))))) x
  setFn f x := host.setFn (fun k => hs k ▸ (f (s k) : Fin (b (e (s k))) → ℝ)) x
  setMu := host.setMu
  energy := host.energy
  print := host.print
  C x := expand e W (host.C x)
  hphi x := expand e W (host.hphi x)
  fn x := spread e (host.fn x)
  ek x := spread e (host.ek x)
  mu := host.mu

theorem pick_copy {β : Fin K → Type} (f : (k : Fin K) → β k) {j k : Fin K} (h : j = k) : (h ▸ f j : β k) = f k := by
  subst h; rfl

/-- it describes the same system -/
def expandHost_same (hW : ∀ l, (W l)ᴴ * W l = 1) : SameHost e W (expandHost W host s hs) host where
  R h x := h = x
  C h := by subst h; rfl
  hphi h := by subst h; rfl
  fn h := by subst h; rfl
  ek h := by subst h; rfl
  setC X h := by
    subst h
    have : (fun k => (hs k ▸ ((W (s k))ᴴ * expand e W X (s k) : Mat (n (e (s k))) (b (e (s k)))) : Mat (n k) (b k))) = X := by
      funext k
      have h1 : (W (s k))ᴴ * expand e W X (s k) = X (e (s k)) := by
        rw [expand, ← Matrix.mul_assoc, hW, Matrix.one_mul]
      rw [h1]
      exact pick_copy (β := fun k => Mat (n k) (b k)) X (hs k)
    simp only [expandHost, this, and_self]
  setFn f h := by
    subst h
    have : (fun k => (hs k ▸ (spread e f (s k) : Fin (b (e (s k))) → ℝ) : Fin (b k) → ℝ)) = f := by
      funext k
      exact pick_copy (β := fun k => Fin (b k) → ℝ) f (hs k)
    simp only [expandHost, this, and_self]
  compute h := by subst h; exact ⟨rfl, rfl⟩
  setMu mu h := by subst h; exact ⟨rfl, rfl⟩
  energy h := by subst h; exact ⟨rfl, rfl⟩
  print h := by subst h; exact ⟨rfl, rfl⟩

end expand

/-- three plane waves instead of two, in another order -/
def demoW : Mat 3 2 := !![0, 1; 1, 0; 0, 0]

theorem demoW_iso : demoWᴴ * demoW = 1 := by
  ext i j
  fin_cases i <;> fin_cases j <;> simp [demoW, mul_apply, Fin.sum_univ_three]

/-- the k-point of `Props/Solver` replaced by two copies with a third and two thirds of its weight -/
noncomputable def demoSplit : Cfg (fun _ : Fin 2 => 3) (copies demoB fun _ => 0) :=
  { la := refLapack, t := .gauss, T := 300, kappa := 3 / 10, mo := 2, wk := ![1 / 3, 2 / 3],
    S := fun _ => 1, P := fun _ => 1,
    occ := searchOcc false .gauss { T := 300, occ := 2, ne := 1, tol := 1 / 10 ^ 11 }
      (fun l => toLex ((l : ℤ), 0)) ![1 / 3, 2 / 3],
    junk := fun _ => 7 }

theorem demo_same_system : SameSystem (fun _ : Fin 2 => (0 : Fin 1)) (fun _ => demoW) demoSplit (demoCfg demoSearch) where
  isometry _ := demoW_iso
  weights k := by
    fin_cases k
    norm_num [demoSplit, demoCfg, Fin.sum_univ_two, Finset.filter_true]
  nonzero := by
    refine ⟨fun k => by simp [demoCfg], fun l => ?_⟩
    fin_cases l <;> norm_num [demoSplit]
  S _ := by simp [demoSplit, demoCfg]
  P _ := by simp [demoSplit, demoCfg]
  occ x := C76_same_search false _ _ (fun a b _ => Subsingleton.elim a b)
    (fun a b h => by simpa [Fin.ext_iff] using h) (fun k => by
      fin_cases k
      norm_num [demoSplit, demoCfg, Fin.sum_univ_two, Finset.filter_true]) x
  la := rfl
  t := rfl
  T := rfl
  kappa := rfl
  mo := rfl

example : Nonempty (SameHost (fun _ : Fin 2 => (0 : Fin 1)) (fun _ => demoW)
    (expandHost (e := fun _ : Fin 2 => (0 : Fin 1)) (fun _ => demoW) demoHost (fun _ => 0) fun k => Subsingleton.elim _ _) demoHost) :=
  ⟨expandHost_same _ _ _ _ fun _ => demoW_iso⟩

/-- with different uninitialised members -/
example (prm : NlcgParams ℝ) (fuel : ℕ) :
    (solve (expandHost (e := fun _ : Fin 2 => (0 : Fin 1)) (fun _ => demoW) demoHost (fun _ => 0)
      fun k => Subsingleton.elim _ _) demoSplit prm fuel 0
      { s := ⟨(demoStart 5).s.h, 3, 4, []⟩, file := [], info := { vals := none, converged := false },
        force := false, trace := [] }).map observed
    = (solve demoHost (demoCfg demoSearch) prm fuel 0 (demoStart 5)).map observed :=
  (C76_same_run (w' := demoStart 5) (expandHost_same _ demoHost (fun _ => 0) (fun k => Subsingleton.elim _ _)
    fun _ => demoW_iso) demo_same_system (by exact rfl) ⟨rfl, rfl, rfl, rfl⟩).1

end Nlcg
