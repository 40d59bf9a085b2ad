import Verif.Proofs.OpRules
import Verif.Proofs.SearchOcc

/-! Operators that multiply: the run is the one of the solver with matrices. Also the number of applications. -/

namespace Nlcg
open Matrix Spec

variable {K : ℕ} {n b : Fin K → ℕ} {η β γ : Type} {A : Operators η n b} {c : Cfg n b}

/-- outcome `r`, and only the record has changed -/
def Quiet (m : SM (OState η n b) β) (r : Res β) : Prop := ∀ o, (m o).1 = r ∧ (m o).2.s = o.s

theorem Quiet.bind {m : SM (OState η n b) β} {r : Res β} {f : β → SM (OState η n b) γ} {g : β → Res γ} (hm : Quiet m r)
    (hf : ∀ x, Quiet (f x) (g x)) : Quiet (m >>= f) (r >>= g) := by
  intro o
  obtain ⟨h1, h2⟩ := hm o
  rw [SM.bind_apply]
  generalize m o = q at h1 h2 ⊢
  obtain ⟨q, o1⟩ := q
  simp only at h1 h2
  subst h1
  rcases q with x | e | _ | _
  · rw [← h2]; exact hf x o1
  all_goals exact ⟨rfl, h2⟩

theorem Quiet.bind_ok {m : SM (OState η n b) β} {x : β} {f : β → SM (OState η n b) γ} {r : Res γ} (hm : Quiet m (.ok x))
    (hf : Quiet (f x) r) : Quiet (m >>= f) r := by
  intro o
  obtain ⟨h1, h2⟩ := hm o
  rw [SM.bind_apply]
  generalize m o = q at h1 h2 ⊢
  obtain ⟨q, o1⟩ := q
  simp only at h1 h2
  subst h1
  rw [← h2]; exact hf o1

theorem quiet_pure (x : β) : Quiet (pure x : SM (OState η n b) β) (.ok x) := fun _ => ⟨rfl, rfl⟩
theorem quiet_lift (r : Res β) : Quiet (SM.lift r : SM (OState η n b) β) r := fun _ => ⟨rfl, rfl⟩

theorem quiet_forAllM : {J : ℕ} → {β : Fin J → Type} → {f : (j : Fin J) → SM (OState η n b) (β j)} →
    {g : (j : Fin J) → Res (β j)} → (∀ j, Quiet (f j) (g j)) → Quiet (forAllM f) (forAllK g)
  | 0, _, _, _, _ => quiet_pure _
  | J + 1, β, f, g, h => by
    rw [forAllM, forAllK]
    exact (h 0).bind fun a => (quiet_forAllM fun j => h j.succ).bind fun r => quiet_pure _

theorem quiet_forAllM_ok {J : ℕ} {β : Fin J → Type} {f : (j : Fin J) → SM (OState η n b) (β j)}
    {g : (j : Fin J) → β j} (h : ∀ j, Quiet (f j) (.ok (g j))) : Quiet (forAllM f) (.ok g) := by
  have := quiet_forAllM h
  obtain ⟨r, hr⟩ := forAllK_of_ok (fun j => Res.ok (g j)) fun j => ⟨_, rfl⟩
  rw [hr, show r = g from funext fun j => by simpa using (forAllK_ok hr j).symm] at this
  exact this

theorem quiet_applyS (hA : Multiply A c) (k : Fin K) (x : Mat (n k) (b k)) : Quiet (applyS A k x) (.ok (c.S k * x)) := by
  intro o
  simp only [applyS, hA.S]
  exact ⟨trivial, trivial⟩

theorem quiet_applyP (hA : Multiply A c) (k : Fin K) (x : Mat (n k) (b k)) : Quiet (applyP A k x) (.ok (c.P k * x)) := by
  intro o
  simp only [applyP, hA.P]
  exact ⟨trivial, trivial⟩

theorem quiet_execSpcO (hA : Multiply A c) (p : DirParams) (dF sumfn : ℝ) (k : Fin K) (ki : KIn (n k) (b k))
    (hS : ki.S = c.S k) (hP : ki.P = c.P k) :
    Quiet (execSpcO A c.la p dF sumfn k ki) (.ok (execSpc c.la p dF sumfn ki, ki.S * ki.X)) := by
  rw [execSpcO]
  have hl : Quiet (lmultO A c.la k (c.S k * ki.X) ki.hx) (.ok (lmult c.la (ki.S * ki.X) ki.hx ki.P)) := by
    rw [lmultO, hS, hP]
    exact (quiet_applyP hA k _).bind_ok ((quiet_applyP hA k _).bind_ok (quiet_pure _))
  refine (quiet_applyS hA k _).bind_ok (hl.bind_ok ((quiet_applyP hA k _).bind_ok ?_))
  have := quiet_pure (η := η) (n := n) (b := b) (execSpc c.la p dF sumfn ki, ki.S * ki.X)
  simp only [execSpc, precondgxUs] at this ⊢
  rw [hS, hP] at this ⊢
  exact this

/-- the same outcome, and the same state but for the record -/
abbrev OpOut (x : Res β × OState η n b) (y : Res β × SState η n b) : Prop := y = (x.1, x.2.s)

theorem OpOut.bind {m : SM (OState η n b) β} {m' : SM (SState η n b) β}
    {f : β → SM (OState η n b) γ} {f' : β → SM (SState η n b) γ} {s : OState η n b}
    {s' : SState η n b} (h : OpOut (m s) (m' s')) (hf : ∀ r t, OpOut (f r t) (f' r t.s)) :
    OpOut ((m >>= f) s) ((m' >>= f') s') := by
  rw [SM.bind_apply, SM.bind_apply]
  rw [OpOut] at h
  rw [h]
  rcases m s with ⟨_ | _ | _ | _, t⟩
  · exact hf _ t
  all_goals rfl

theorem Quiet.out {m : SM (OState η n b) β} {r : Res β} (h : Quiet m r) (o : OState η n b) :
    OpOut (m o) ((SM.lift r : SM (SState η n b) β) o.s) := by
  rw [OpOut, SM.lift_apply, (h o).1, (h o).2]

theorem opEvaluate (host : Host η n b) (c : Cfg n b) (X : Orbitals n b) (fn en : Bands b) (mu : ℝ) (o : OState η n b) :
    OpOut (evaluateO host c X fn en mu o) (evaluate host c X fn en mu o.s) := by
  rw [evaluate, evaluateO]
  refine OpOut.bind rfl fun _ o => ?_
  refine OpOut.bind rfl fun _ o => ?_
  refine OpOut.bind rfl fun _ o => ?_
  refine OpOut.bind rfl fun _ o => ?_
  exact OpOut.bind rfl fun _ o => rfl

theorem opSetup (host : Host η n b) (c : Cfg n b) (o : OState η n b) :
    OpOut (setupO host c o) (solverSetup host c o.s) := by
  rw [setupO, solverSetup]
  refine OpOut.bind rfl fun _ o => ?_
  show OpOut ((SM.lift (c.occ (host.ek o.s.h)) >>= _) o) ((SM.lift (c.occ (host.ek o.s.h)) >>= _) o.s)
  refine OpOut.bind rfl fun q o => ?_
  refine OpOut.bind (opEvaluate host c _ _ _ _ o) fun _ o => rfl

theorem opRestarted (host : Host η n b) (hA : Multiply A c) (pt : Point n b) (o : OState η n b) :
    OpOut (restartedO host A c pt o) (solverRestarted host c pt o.s) := by
  show OpOut ((forAllM _ >>= fun r => _) o)
    ((SM.lift (.ok (restarted c.la (dirParams c pt) (kIn host c pt o.s.h))) : SM _ _) o.s)
  refine Quiet.out ?_ o
  refine Quiet.bind_ok (quiet_forAllM_ok fun k => quiet_execSpcO hA _ _ _ k _ rfl rfl) ?_
  exact quiet_pure _

theorem opConjugated (host : Host η n b) (hA : Multiply A c) (fr : ℝ) (pt : Point n b) (dir : Dir n b)
    (o : OState η n b) : OpOut (conjugatedO host A c fr pt dir o) (solverConjugated host c fr pt dir o.s) := by
  show OpOut ((forAllM _ >>= fun r => _) o)
    ((SM.lift (.ok (conjugated c.la (dirParams c pt) fr (kIn host c pt o.s.h) dir pt.ul)) : SM _ _) o.s)
  refine Quiet.out ?_ o
  refine Quiet.bind_ok (quiet_forAllM_ok fun k =>
    Quiet.bind_ok (quiet_execSpcO hA _ _ _ k _ rfl rfl) (quiet_pure _)) ?_
  exact quiet_pure _

theorem quiet_geoTask (hA : Multiply A c) (pt : Point n b) (dir : Dir n b) (t : ℝ) (k : Fin K) :
    Quiet (geoTask A c.la pt dir t k)
      (geodesicUs c.la (pt.X k) (pt.eta k) (dir.zx k) (dir.zeta k) (c.S k) t) := by
  rw [geoTask, geodesicUs]
  refine (quiet_lift _).bind fun q => ?_
  refine (quiet_applyS hA k _).bind_ok ?_
  simp only [advanceX]
  intro o
  simp only [SM.lift_bind]
  rcases loewdin c.la (addM (pt.X k) (dir.zx k) ↑t) (c.S k * addM (pt.X k) (dir.zx k) ↑t) with x | e | _ | _
  all_goals exact ⟨rfl, rfl⟩

theorem opGeo (host : Host η n b) (hA : Multiply A c) (pt : Point n b) (dir : Dir n b) (t : ℝ) (o : OState η n b) :
    OpOut (geoO host A c pt dir t o) (solverGeo host c pt dir t o.s) := by
  rw [geoO, solverGeo]
  refine OpOut.bind ((quiet_forAllM fun k => quiet_geoTask hA pt dir t k).out o) fun g o => ?_
  refine OpOut.bind rfl fun q o => ?_
  exact OpOut.bind (opEvaluate host c _ _ _ _ o) fun _ o => rfl

/-- states that differ by the record -/
def opWorld (η : Type) (n b : Fin K → ℕ) : World (OState η n b) (SState η n b) where
  R s s' := s' = s.s
  le _ _ := True
  refl _ := trivial
  trans _ _ := trivial

theorem OpOut.to {Q : β → β → Prop} (hQ : ∀ r, Q r r) {s : OState η n b}
    {x : Res β × OState η n b} {y : Res β × SState η n b} (h : OpOut x y) :
    Out (opWorld η n b) (fun _ => Q) s x y := by
  rw [OpOut] at h
  subst h
  refine ⟨rfl, trivial, ?_⟩
  rcases x with ⟨_ | e | _ | _, t⟩
  · exact .ok (hQ _)
  · exact .throw e
  · exact .ub
  · exact .abort

/-- the two backends correspond -/
def opSim (host : Host η n b) (hA : Multiply A c) : Sim (opOps host A c) (solverOps host c) where
  W := opWorld η n b
  P0 _ p p' := p = p'
  P _ p p' := p = p'
  D _ d d' := d = d'
  weaken h := h
  P0_mono _ h := h
  P_mono _ h := h
  D_mono _ h := h
  construct := by rintro s _ rfl; exact OpOut.to (fun _ => trivial) rfl
  setup := by rintro s _ rfl; exact (opSetup host c s).to fun _ => rfl
  restarted := by rintro s _ p _ rfl rfl; exact (opRestarted host hA p s).to fun _ => ⟨rfl, rfl⟩
  conjugated := by rintro s _ p _ d _ fr rfl rfl rfl; exact (opConjugated host hA fr p d s).to fun _ => ⟨rfl, rfl, rfl⟩
  geo := by rintro s _ p _ d _ t rfl rfl rfl; exact (opGeo host hA p d t s).to fun _ => rfl
  refresh := by rintro s _ p _ rfl rfl; exact OpOut.to (Q := fun a b => a = b) (fun _ => rfl) rfl
  gather := by rintro s _ p _ rfl rfl; exact OpOut.to (fun _ => trivial) rfl
  hostPrint := by rintro s _ rfl; exact OpOut.to (fun _ => trivial) rfl
  getF := by rintro s _ rfl; rfl
  getS := by rintro s _ rfl; rfl

theorem op_run (host : Host η n b) (hA : Multiply A c) (prm : NlcgParams ℝ) (fuel rank : ℕ)
    (w : NState ℝ (OState η n b)) :
    solve host c prm fuel rank (withoutRecord w)
      = (solveO host A c prm fuel rank w).map fun q => (q.1, withoutRecord q.2) := by
  have h := nlcg_rel (opSim host hA) prm fuel rank (w := w) (w' := withoutRecord w) ⟨rfl, rfl, rfl, rfl, rfl⟩
  rw [solve, solveO]
  generalize nlcg (opOps host A c) prm fuel rank w = x at h ⊢
  generalize nlcg (solverOps host c) prm fuel rank (withoutRecord w) = y at h ⊢
  cases h with
  | none => rfl
  | some h =>
    rename_i x y
    obtain ⟨⟨h1, h2, h3, h4, h5⟩, -, h6⟩ := h
    obtain ⟨o, v⟩ := x
    obtain ⟨o', v'⟩ := y
    have e : v' = withoutRecord v := by
      cases v'
      simp only at h1 h2 h3 h4 h5
      subst h2 h3 h4 h5
      have h1 : _ = v.s.s := h1
      subst h1
      rfl
    subst e
    have : o' = o := by cases h6 <;> first | rfl | (rename_i h; rw [h])
    rw [this]
    rfl

/-! ## The search for the chemical potential -/

/-- not one of the exceptions that the solver uses internally -/
def Res.Foreign (r : Res β) : Prop := ∀ e, r = .throw e → e ≠ .slopeError ∧ e ≠ .stepError ∧ e ≠ .descentError

theorem Res.foreign_bind {r : Res β} {f : β → Res γ} (hr : r.Foreign) (hf : ∀ x, (f x).Foreign) : (r >>= f).Foreign := by
  rcases r with x | e | _ | _
  · exact hf x
  · intro e' h
    cases h
    exact hr e rfl
  · intro e' h
    cases h
  · intro e' h
    cases h

theorem findChemPotRun_foreign {α : Type} [Arith α] (f : α → α) (mu0 tol : α) : (findChemPotRun f mu0 tol).Foreign := by
  rw [findChemPotRun, findChemPot]
  rcases whileFuel (cpGuard f tol) (cpBody f) (cpNmax + 1) (cpInit mu0) with _ | st
  · simp [Res.Foreign]
  · simp only [Option.map_some, cpFinish]
    split <;> simp [Res.Foreign]

theorem newtonRun_foreign {α : Type} [Arith α] (N dN ddN : α → α) (mu0 ne tol : α) (m : ℕ) :
    (newtonRun N dN ddN mu0 ne tol m).Foreign := by
  have hb : ∀ st r, newtonBody N dN ddN ne tol m st = .inl r → r.Foreign := by
    intro st r
    simp only [newtonBody]
    intro h
    split at h
    · cases h; simp [Res.Foreign]
    · split at h
      · split at h <;> · cases h; simp [Res.Foreign]
      · split at h
        · cases h; simp [Res.Foreign]
        · cases h
  have hl : ∀ n st k q, newtonLoop N dN ddN ne tol m n st k = some q → q.1.Foreign := by
    intro n
    induction n with
    | zero => intro st k q h; simp [newtonLoop] at h
    | succ n ih =>
      intro st k q h
      rw [newtonLoop] at h
      split at h
      · next r hr => cases h; exact hb st r hr
      · exact ih _ _ _ h
  rw [newtonRun, newton]
  split
  · next r hr => exact hl _ _ _ _ hr
  · simp [Res.Foreign]

theorem searchOcc_foreign (useNewton : Bool) (t : SmearType) (p : OccParams ℝ) (key : Fin K → Key)
    (wk : Fin K → ℝ) (ek : Bands b) : (searchOcc useNewton t p key wk ek).Foreign := by
  rw [searchOcc]
  refine Res.foreign_bind ?_ fun mu => by simp [Res.Foreign]
  cases useNewton
  · exact findChemPotRun_foreign _ _ _
  · refine Res.foreign_bind (findChemPotRun_foreign _ _ _) fun mu0 => ?_
    split
    · exact findChemPotRun_foreign _ _ _
    · exact newtonRun_foreign _ _ _ _ _ _ _

/-! ## Numbers of calls -/

theorem appliedS_append (k : Fin K) (l l' : List (Entry n b)) : appliedS k (l ++ l') = appliedS k l + appliedS k l' :=
  List.countP_append
theorem appliedP_append (k : Fin K) (l l' : List (Entry n b)) : appliedP k (l ++ l') = appliedP k l + appliedP k l' :=
  List.countP_append
theorem energies_append (l l' : List (Entry n b)) : energies (l ++ l') = energies l + energies l' :=
  List.countP_append

theorem told_counts (p : Evaluated n b) : energies (told p) = 1 ∧ ∀ k, appliedS k (told p) = 0 ∧ appliedP k (told p) = 0 := by
  obtain ⟨X, f, mu⟩ := p
  refine ⟨by simp [told, evaluation, energies], fun k => ?_⟩
  constructor <;> simp [told, evaluation, appliedS, appliedP]

theorem countP_each {B : Fin K → List (Entry n b) → Prop} {l : List (Entry n b)} (h : Each B l) (p : Entry n b → Bool)
    {m : Fin K → ℕ} (hB : ∀ k l, B k l → l.countP p = m k) : l.countP p = ∑ k, m k := by
  obtain ⟨f, h1, rfl⟩ := h
  rw [List.countP_flatten, List.map_ofFn, List.sum_ofFn]
  exact Finset.sum_congr rfl fun k _ => hB k _ (h1 k)

theorem direction_counts {X : Orbitals n b} {l : List (Entry n b)} (h : Each (fun k => DirectionAt k (X k)) l) :
    energies l = 0 ∧ ∀ k, appliedS k l = 1 ∧ appliedP k l = 3 := by
  refine ⟨?_, fun k => ⟨?_, ?_⟩⟩
  · rw [energies, countP_each h _ (m := fun _ => 0)]
    · simp
    · rintro k l ⟨sx, hx, p, q, r, ll, rfl⟩
      simp
  · rw [appliedS, countP_each h _ (m := fun j => if j = k then 1 else 0)]
    · simp
    · rintro j l ⟨sx, hx, p, q, r, ll, rfl⟩
      simp [List.countP_cons]
  · rw [appliedP, countP_each h _ (m := fun j => if j = k then 3 else 0)]
    · simp
    · rintro j l ⟨sx, hx, p, q, r, ll, rfl⟩
      by_cases hj : j = k <;> simp [hj]

theorem step_counts {y : Orbitals n b} {l : List (Entry n b)} (h : Each (StepAt y) l) :
    energies l = 0 ∧ ∀ k, appliedS k l = 1 ∧ appliedP k l = 0 := by
  refine ⟨?_, fun k => ⟨?_, ?_⟩⟩
  · rw [energies, countP_each h _ (m := fun _ => 0)]
    · simp
    · rintro k l ⟨sy, rfl⟩
      simp
  · rw [appliedS, countP_each h _ (m := fun j => if j = k then 1 else 0)]
    · simp
    · rintro j l ⟨sy, rfl⟩
      simp [List.countP_cons]
  · rw [appliedP, countP_each h _ (m := fun _ => 0)]
    · simp
    · rintro j l ⟨sy, rfl⟩
      simp

theorem history_counts {l : List (Entry n b)} {X : Option (Orbitals n b)} (h : History l X) :
    (X = none → energies l = 0 ∧ ∀ k, appliedS k l = 0 ∧ appliedP k l = 0) ∧
    (X ≠ none → ∃ D, 1 ≤ energies l ∧ ∀ k, appliedS k l = energies l - 1 + D ∧ appliedP k l = 3 * D) := by
  induction h with
  | start => exact ⟨fun _ => ⟨rfl, fun _ => ⟨rfl, rfl⟩⟩, fun h => absurd rfl h⟩
  | first cs X f mu _ ih =>
    refine ⟨fun h => (by cases h), fun _ => ⟨0, ?_⟩⟩
    obtain ⟨h1, h2⟩ := ih.1 rfl
    obtain ⟨t1, t2⟩ := told_counts (X, f, mu)
    rw [energies_append, h1, t1]
    refine ⟨le_rfl, fun k => ?_⟩
    rw [appliedS_append, appliedP_append, (h2 k).1, (h2 k).2, (t2 k).1, (t2 k).2]
    exact ⟨rfl, rfl⟩
  | direction cs l X _ hl ih =>
    refine ⟨fun h => (by cases h), fun _ => ?_⟩
    obtain ⟨D, h1, h2⟩ := ih.2 (by simp)
    obtain ⟨t1, t2⟩ := direction_counts hl
    refine ⟨D + 1, ?_⟩
    rw [energies_append, t1]
    refine ⟨h1, fun k => ?_⟩
    rw [appliedS_append, appliedP_append, (h2 k).1, (h2 k).2, (t2 k).1, (t2 k).2]
    constructor <;> omega
  | step cs l X y R f mu _ hl ih =>
    refine ⟨fun h => (by cases h), fun _ => ?_⟩
    obtain ⟨D, h1, h2⟩ := ih.2 (by simp)
    obtain ⟨t1, t2⟩ := step_counts hl
    obtain ⟨u1, u2⟩ := told_counts (fun k => y k * R k, f, mu)
    refine ⟨D, ?_⟩
    rw [energies_append, energies_append, t1, u1]
    refine ⟨by omega, fun k => ?_⟩
    rw [appliedS_append, appliedP_append, appliedS_append, appliedP_append, (h2 k).1, (h2 k).2, (t2 k).1, (t2 k).2,
      (u2 k).1, (u2 k).2]
    constructor <;> omega
  | print cs X _ ih =>
    refine ⟨fun h => (by cases h), fun _ => ?_⟩
    obtain ⟨D, h1, h2⟩ := ih.2 (by simp)
    refine ⟨D, ?_⟩
    rw [energies_append]
    refine ⟨h1, fun k => ?_⟩
    rw [appliedS_append, appliedP_append]
    exact h2 k

end Nlcg
