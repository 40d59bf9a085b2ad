import Verif.Spec.Hang
import Verif.Proofs.Schedule

/-! A rank whose eigensolver may fail, beside the same rank with an eigensolver that never reports a failure. -/

namespace Nlcg
open Matrix Spec

variable {K R : ℕ} {own : Fin K → Fin R} {n b : Fin K → ℕ} {η : Type}

/-- the eigensolver of a rank never reports failures -/
def LCfg.steady {r : Fin R} (c : LCfg own n b r) : LCfg own n b r := { c with la := c.la.steady }

theorem steady_eigh (la : Lapack) {m : ℕ} (A : Mat m m) :
    la.eigh A = la.steady.eigh A ∨ la.eigh A = .throw .runtimeError := by
  unfold Lapack.eigh
  by_cases h : (la.heevd A).2 = 0
  · left; simp [Lapack.steady, h]
  · right; simp [h]

theorem steady_geodesic (la : Lapack) {N B : ℕ} (X zx : Mat N B) (eta zeta : Mat B B) (S : Mat N N) (t : ℝ) :
    geodesicUs la X eta zx zeta S t = geodesicUs la.steady X eta zx zeta S t ∨
      geodesicUs la X eta zx zeta S t = .throw .runtimeError := by
  unfold geodesicUs
  simp only
  rcases steady_eigh la (advanceEta t eta zeta) with h | h
  · rw [h]
    cases la.steady.eigh (advanceEta t eta zeta) with
    | ok p =>
      simp only [Res.bind_ok]
      unfold advanceX loewdin
      simp only
      rcases steady_eigh la (innerM (addM X zx (t : ℂ)) (S * addM X zx (t : ℂ))) with h' | h'
      · rw [h']; exact .inl rfl
      · rw [h']; exact .inr rfl
    | throw e => exact .inl rfl
    | ub => exact .inl rfl
    | abort => exact .inl rfl
  · rw [h]; exact .inr rfl

theorem steady_geodesic_ok (la : Lapack) {N B : ℕ} (X zx : Mat N B) (eta zeta : Mat B B) (S : Mat N N) (t : ℝ) :
    ∃ y, geodesicUs la.steady X eta zx zeta S t = .ok y := ⟨_, rfl⟩

theorem forAllK_same_or_throw : ∀ {K : ℕ} {β : Fin K → Type} {f g : (k : Fin K) → Res (β k)},
    (∀ k, f k = g k ∨ f k = .throw .runtimeError) → forAllK f = forAllK g ∨ forAllK f = .throw .runtimeError
  | 0, _, _, _, _ => .inl rfl
  | K + 1, β, f, g, h => by
    rw [forAllK, forAllK]
    rcases h 0 with h0 | h0
    · rw [h0]
      rcases forAllK_same_or_throw (f := fun k => f k.succ) (g := fun k => g k.succ) fun k => h k.succ with h1 | h1
      · rw [h1]; exact .inl rfl
      · rw [h1]
        cases g 0 with
        | ok y => exact .inr rfl
        | throw e => exact .inl rfl
        | ub => exact .inl rfl
        | abort => exact .inl rfl
    · rw [h0]; exact .inr rfl

theorem forMine_same_or_throw {r : Fin R} {β : Mine own r → Type} {f g : (k : Mine own r) → Res (β k)}
    (h : ∀ k, f k = g k ∨ f k = .throw .runtimeError) :
    forMine f = forMine g ∨ forMine f = .throw .runtimeError := by
  unfold forMine
  rcases forAllK_same_or_throw (β := fun k => (h : own k = r) → β ⟨k, h⟩)
    (f := fun k => if h : own k = r then do
      let v ← f ⟨k, h⟩
      pure fun _ => v
    else pure fun h' => absurd h' h)
    (g := fun k => if h : own k = r then do
      let v ← g ⟨k, h⟩
      pure fun _ => v
    else pure fun h' => absurd h' h) (fun k => by
      by_cases hk : own k = r
      · simp only [dif_pos hk]
        rcases h ⟨k, hk⟩ with h1 | h1
        · rw [h1]; exact .inl rfl
        · rw [h1]; exact .inr rfl
      · simp only [dif_neg hk]; exact .inl trivial) with h1 | h1
  · rw [h1]; exact .inl rfl
  · rw [h1]; exact .inr rfl

/-- the rank whose eigensolver may fail beside the one with the other eigensolver, which goes on with a gather -/
def hangWorld (own : Fin K → Fin R) (n b : Fin K → ℕ) (r : Fin R) :
    CutWorld (RState own n b r) (RState own n b r) where
  file := False
  R x y := x = y
  X x y := ∃ e a, x.log ++ [(.gather e, a)] <+: y.log
  le x y := x.log <+: y.log
  refl _ := List.prefix_rfl
  trans _ _ _ h h' := h.trans h'
  mono := by
    rintro x y z ⟨e, a, h⟩ h'
    exact ⟨e, a, h.trans h'⟩

theorem hang_same {r : Fin R} {β : Type} (m : SM (RState own n b r) β) (x y : RState own n b r)
    (h : (hangWorld own n b r).R x y) : CutOp (hangWorld own n b r) (m x) (m y) := by
  have h' : x = y := h
  subst h'
  exact .same (W := hangWorld own n b r) (o := (m x).1) (s := (m x).2) (s' := (m x).2) rfl

theorem hang_geo {r : Fin R} (ω : ℕ → Reply own n b r) (c : LCfg own n b r) (pt : RPoint own n b r)
    (dir : RDir own n b r) (t : ℝ) (x y : RState own n b r) (h : (hangWorld own n b r).R x y) :
    CutOp (hangWorld own n b r) (geoR ω c pt dir t x) (geoR ω c.steady pt dir t y) := by
  have h' : x = y := h
  subst h'
  have key := forMine_same_or_throw (own := own) (r := r) fun k =>
    steady_geodesic c.la (pt.X k) (dir.zx k) (pt.eta k) (dir.zeta k) (c.S k) t
  obtain ⟨g, hg⟩ : ∃ g, (forMine fun k : Mine own r =>
      geodesicUs c.la.steady (pt.X k) (pt.eta k) (dir.zx k) (dir.zeta k) (c.S k) t) = .ok g :=
    ⟨_, forMine_ok fun k => rfl⟩
  have hB : geoR ω c.steady pt dir t = SM.lift (.ok g) >>= fun g => (do
      let (mu, fn) ← occR ω c.steady fun k => (g k).ek
      evaluateR ω c.steady (fun k => (g k).X) fn (fun k => (g k).ek) mu
      pure { pt with X := fun k => (g k).X, ek := fun k => (g k).ek, ul := fun k => (g k).ul, mu := mu }) := by
    rw [← hg]; rfl
  rcases key with key | key
  · have hA : geoR ω c pt dir t = geoR ω c.steady pt dir t := by
      rw [hB, geoR, key, hg]; rfl
    rw [hA]
    exact hang_same _ x x rfl
  · have hA : geoR ω c pt dir t x = (.throw .runtimeError, x) := by
      rw [geoR, key]; rfl
    rw [hA]
    refine .cut ⟨fun k => (g k).ek, ω x.log.length, ?_⟩
    rw [hB]
    exact ((Starts.occR c.steady fun k => (g k).ek).bind fun q => (Grows.evaluateR c.steady _ _ _ _).bind fun _ =>
      Grows.pure _) x

theorem hang_ops {r : Fin R} (ω : ℕ → Reply own n b r) (c : LCfg own n b r) :
    CutOps (rankOps ω c) (rankOps ω c.steady) (hangWorld own n b r) where
  construct x y h := by
    have h' : x = y := h
    subst h'
    exact ⟨rfl, rfl⟩
  setup := hang_same (setupR ω c)
  restarted p := hang_same (restartedR ω c p)
  conjugated fr p d := hang_same (conjugatedR ω c fr p d)
  geo := hang_geo ω c
  refresh p := hang_same (refreshR p)
  gather p := hang_same (jsonGatherR ω p)
  gather_file h := h.elim
  print := hang_same (hostR ω .print)
  getF x y h := by
    have h' : x = y := h
    rw [h']
    rfl
  getS x y h := by
    have h' : x = y := h
    rw [h']
    rfl
  grow := rank_grows ω c.steady

/-- A rank ends as with the other eigensolver, or with an exception where the other one calls a gather. -/
theorem rank_hang {r : Fin R} (ω : ℕ → Reply own n b r) (c : LCfg own n b r) (prm : NlcgParams ℝ) (fuel : ℕ)
    (w v : NState ℝ (RState own n b r)) (o : Res (Info ℝ)) (h : rankRun ω c.steady prm fuel w = some (o, v)) :
    rankRun ω c prm fuel w = some (o, v) ∨ ∃ v' e a, rankRun ω c prm fuel w = some (.throw .runtimeError, v') ∧
      v'.s.log ++ [(.gather e, a)] <+: v.s.log := by
  have k := (hang_ops ω c).run prm fuel r w w ⟨rfl, rfl, rfl, rfl, rfl⟩
  rw [rankRun] at h ⊢
  rw [h] at k
  generalize nlcg (rankOps ω c) prm fuel r w = x at k
  cases k with
  | same e =>
    rename_i v'
    left
    obtain ⟨e1, e2, e3, e4, e5⟩ := e
    obtain ⟨s, f, j, g, t⟩ := v
    obtain ⟨s', f', j', g', t'⟩ := v'
    have e1' : s' = s := e1
    simp only at *
    rw [e1', e2, e3, e4, e5]
  | cut e =>
    rename_i v'
    right
    obtain ⟨⟨e1, a1, k1⟩, -⟩ := e _ rfl
    exact ⟨v', e1, a1, rfl, k1⟩

section first
open Arith
variable {α σ ρ δ : Type} [Arith α] {ops : Ops α σ ρ δ} {prm : NlcgParams α} {fuel rank : ℕ}

theorem BodyRun.trace_prefix {i : ℕ} {v : Vars α ρ δ} {w w1 : NState α σ} {o : Res (Vars α ρ δ)}
    (h : BodyRun ops prm fuel rank i v w o w1) : w.trace <+: w1.trace := by
  cases h with
  | json => exact List.prefix_rfl
  | hostPrint => exact List.prefix_append _ _
  | search =>
    simp only [searchStart, List.append_assoc]
    exact List.prefix_append _ _
  | searched =>
    simp only [searchStart, List.append_assoc]
    exact List.prefix_append _ _

theorem LoopRun.trace_prefix {m i : ℕ} {v : Vars α ρ δ} {w w' : NState α σ} {o : Res (Info α)}
    (h : LoopRun ops prm fuel rank m i v w o w') : w.trace <+: w'.trace := by
  induction h with
  | limit => exact List.prefix_rfl
  | success => exact List.prefix_append _ _
  | successJson => exact List.prefix_append _ _
  | successPrint => exact List.prefix_append _ _
  | step n i v w v' w1 o w' _ hb _ ih =>
    exact ((List.prefix_append _ _).trans hb.trace_prefix).trans ih
  | caught n i v w e w1 _ hb _ => exact (List.prefix_append _ _).trans hb.trace_prefix
  | uncaught n i v w o w1 _ hb _ _ => exact (List.prefix_append _ _).trans hb.trace_prefix

/-- the history starts with the slope of the first direction -/
theorem first_slope {w w' : NState α σ} {o : Res (Info α)} (h : nlcg ops prm fuel rank w = some (o, w'))
    (hm : 1 ≤ prm.maxiter) {s1 s2 s3 : σ} {pt : ρ} {sl : α} {dir : δ} (h1 : ops.construct w.s = (.ok (), s1))
    (h2 : ops.setup s1 = (.ok pt, s2)) (h3 : ops.restarted pt s2 = (.ok (sl, dir), s3)) :
    [Ev.start 0 sl] <+: w'.trace := by
  have key := nlcg_run ops prm fuel rank w _ _ h
  obtain ⟨m, hm'⟩ : ∃ m, prm.maxiter.toNat = m + 1 := ⟨prm.maxiter.toNat - 1, by omega⟩
  cases key with
  | construct o s k1 k2 =>
    rw [h1] at k1
    cases k1
    simp [Res.isOk] at k2
  | setup s o s' k1 k2 k3 =>
    rw [h1] at k1
    cases k1
    rw [h2] at k2
    cases k2
    simp [Res.isOk] at k3
  | restarted s p s' o s'' k1 k2 k3 k4 =>
    rw [h1] at k1
    cases k1
    rw [h2] at k2
    cases k2
    rw [h3] at k3
    cases k3
    simp [Res.isOk] at k4
  | loop s p s' sl' d s'' k1 k2 k3 k4 k5 =>
    rw [h1] at k3
    cases k3
    rw [h2] at k4
    cases k4
    rw [h3] at k5
    cases k5
    rename_i k6
    rw [hm'] at k6
    cases k6 with
    | success => exact List.prefix_append _ _
    | successJson => exact List.prefix_append _ _
    | successPrint => exact List.prefix_append _ _
    | step _ _ _ _ v' w1 _ _ _ hb hl => exact (BodyRun.trace_prefix hb).trans hl.trace_prefix
    | caught _ _ _ _ e _ _ hb _ => exact BodyRun.trace_prefix hb
    | uncaught _ _ _ _ o w1 _ hb _ _ => exact BodyRun.trace_prefix hb

/-- a line search whose steps all fail -/
theorem lineSearch_fails {env : LSEnv α σ ρ} (hg : ∀ t s, (env.G t s).1 = .throw .runtimeError) {p : LSParams α}
    {slope : α} (hs : (lit 0 <ᶠ slope) = false) {st st' : LSState α σ} {o : Res ρ}
    (h : lineSearch env p fuel slope st = some (o, st')) : o = .throw .runtimeError := by
  rw [lineSearch, if_neg (by simp [hs])] at h
  cases fuel with
  | zero => simp [FM.bind_apply, readF, FM.attempt, qline, qlineLoop, FM.stuck] at h
  | succ m =>
    simp only [FM.bind_apply, readF, FM.attempt, qline, qlineLoop, evalG, hg] at h
    cases h
    rfl

/-- a run that returns although its steps all fail -/
theorem run_without_steps (hg : ∀ p d t s, (ops.geo p d t s).1 = .throw .runtimeError)
    (hga : ∀ p s, (ops.gather p s).1.Clean) (hpr : ∀ s, (ops.hostPrint s).1.Clean) {w w' : NState α σ} {info : Info α} (h : nlcg ops prm fuel rank w = some (.ok info, w')) (hm : 1 ≤ prm.maxiter) :
    ∃ sl, [Ev.start 0 sl] <+: w'.trace ∧ ((Arith.abs sl <ᶠ prm.tol) = true ∨ (lit 0 <ᶠ sl) = true) := by
  have key := nlcg_run ops prm fuel rank w _ _ h
  obtain ⟨m, hm'⟩ : ∃ m, prm.maxiter.toNat = m + 1 := ⟨prm.maxiter.toNat - 1, by omega⟩
  generalize ho : (Res.ok info : Res (Info α)) = o at key
  cases key with
  | construct => exact absurd ho.symm (Res.fail_ne_ok _ _)
  | setup => exact absurd ho.symm (Res.fail_ne_ok _ _)
  | restarted => exact absurd ho.symm (Res.fail_ne_ok _ _)
  | loop s p s' sl d s'' k1 k2 k3 k4 k5 =>
    rename_i k6
    refine ⟨sl, ?_⟩
    have nosearch : ∀ {o : Res ρ} {st st' : LSState α σ}, (lit 0 <ᶠ sl) = false →
        lineSearch { G := ops.geo p d, getF := ops.getF } { tTrial := lit (2 / 10), tau := prm.tau } fuel sl st
          = some (o, st') → o = .throw .runtimeError := fun hs hq => lineSearch_fails (fun t s => hg p d t s) hs hq
    subst ho
    rw [hm'] at k6
    generalize ho : (Res.ok info : Res (Info α)) = o at k6
    cases k6 with
    | success _ _ _ _ _ _ _ ht => exact ⟨List.prefix_append _ _, .inl ht⟩
    | successJson => exact absurd ho.symm (Res.fail_ne_ok _ _)
    | successPrint => exact absurd ho.symm (Res.fail_ne_ok _ _)
    | step _ _ _ _ v' w1 _ _ _ hb hl =>
      refine ⟨(BodyRun.trace_prefix hb).trans hl.trace_prefix, .inr ?_⟩
      by_contra hs
      generalize hv : (Res.ok v' : Res (Vars α ρ δ)) = x at hb
      cases hb with
      | json => exact absurd hv.symm (Res.fail_ne_ok _ _)
      | hostPrint => exact absurd hv.symm (Res.fail_ne_ok _ _)
      | search => exact absurd hv.symm (Res.fail_ne_ok _ _)
      | searched _ _ _ _ _ _ _ _ _ _ _ hq =>
        have := nosearch (by simpa using hs) hq
        simp at this
    | caught _ _ _ _ e _ _ hb he =>
      refine ⟨BodyRun.trace_prefix hb, .inr ?_⟩
      by_contra hs
      generalize hv : (Res.throw e : Res (Vars α ρ δ)) = x at hb
      cases hb with
      | json o s1 f k1 k2 =>
        have k3 : o.Clean := by
          rw [show o = (if _ then _ else _ : Res Unit × σ).1 from congrArg Prod.fst k1.1]
          split
          · exact hga _ _
          · exact ⟨by simp, by simp⟩
        cases o with
        | throw e' =>
          simp only [Res.fail, Res.throw.injEq] at hv
          subst hv
          rcases he with rfl | rfl
          · exact k3.2 rfl
          · exact k3.1 rfl
        | _ => simp [Res.fail] at hv
      | hostPrint s1 s2 f o k1 k2 k3 =>
        have k4 := hpr s1
        rw [k2] at k4
        cases o with
        | throw e' =>
          simp only [Res.fail, Res.throw.injEq] at hv
          subst hv
          rcases he with rfl | rfl
          · exact k4.2 rfl
          · exact k4.1 rfl
        | _ => simp [Res.fail] at hv
      | search _ _ _ o _ _ _ _ hq =>
        have := nosearch (by simpa using hs) hq
        subst this
        simp only [Res.fail, Res.throw.injEq] at hv
        subst hv
        rcases he with he | he <;> simp at he
      | searched _ _ _ _ _ _ _ _ _ _ _ hq =>
        have := nosearch (by simpa using hs) hq
        simp at this
    | uncaught => exact absurd ho.symm (Res.fail_ne_ok _ _)

end first

theorem okClean {β : Type} (x : β) : (Res.ok x).Clean := ⟨by simp, by simp⟩

theorem ubClean {β : Type} : (Res.ub : Res β).Clean := ⟨by simp, by simp⟩

theorem errorClean {β : Type} : (Res.throw .runtimeError : Res β).Clean := ⟨by simp, by simp⟩

theorem rank_gather_clean {r : Fin R} (ω : ℕ → Reply own n b r) (c : LCfg own n b r) (p : RPoint own n b r)
    (s : RState own n b r) : ((rankOps ω c).gather p s).1.Clean := by
  have key : ∀ (e : LBands own b r) (s : RState own n b r), (∃ y, (gatherR ω e s).1 = .ok y) ∨ (gatherR ω e s).1 = .ub := by
    intro e s
    show (∃ y, (SM.bind (coll ω (.gather e)) _ s).1 = .ok y) ∨ (SM.bind (coll ω (.gather e)) _ s).1 = .ub
    simp only [SM.bind, coll]
    cases ω s.log.length
    case bands y => exact .inl ⟨y, rfl⟩
    all_goals exact .inr rfl
  show (SM.bind (gatherR ω p.ek) (fun _ => SM.bind (gatherR ω p.fn) fun _ => pure ()) s).1.Clean
  rw [SM.bind]
  have k1 := key p.ek s
  generalize gatherR ω p.ek s = x at k1
  obtain ⟨o, s'⟩ := x
  rcases k1 with ⟨y, h⟩ | h <;> simp only at h <;> subst h
  · simp only [SM.bind]
    have k2 := key p.fn s'
    generalize gatherR ω p.fn s' = x at k2
    obtain ⟨o, s''⟩ := x
    rcases k2 with ⟨y, h⟩ | h <;> simp only at h <;> subst h
    · exact okClean ()
    · exact ⟨by simp, by simp⟩
  · exact ⟨by simp, by simp⟩

theorem rank_print_clean {r : Fin R} (ω : ℕ → Reply own n b r) (c : LCfg own n b r) (s : RState own n b r) :
    ((rankOps ω c).hostPrint s).1.Clean := by
  show (SM.bind (coll ω .print) _ s).1.Clean
  simp only [SM.bind, coll]
  rcases ω s.log.length with ⟨(_ | _), v⟩ | _ | _ | _ | _
  · exact errorClean
  · exact okClean ()
  all_goals exact ubClean

end Nlcg
