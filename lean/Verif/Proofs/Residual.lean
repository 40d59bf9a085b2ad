import Verif.Props.Solver
import Verif.Spec.Residual

/-! The restarted slope bounds the three residuals; the direction a converged run stopped at. -/

namespace Nlcg
open Matrix Arith Spec
variable {K : ℕ} {n b : Fin K → ℕ}

theorem quad_bound {N B : ℕ} {P : Mat N N} {p0 : ℝ} (hP : BoundedBelow p0 P) (r : Mat N B) (j : Fin B) :
    p0 * ∑ i, Complex.normSq (r i j) ≤ ((rᴴ * P * r) j j).re := by
  have hq : (rᴴ * P * r) j j = star (r.col j) ⬝ᵥ (P *ᵥ r.col j) := by
    rw [Matrix.mul_assoc, mul_apply]
    simp [dotProduct, mulVec, mul_apply, conjTranspose_apply]
  rw [hq]
  exact hP (r.col j)

/-- three non-negative parts of minus the restarted slope -/
theorem restarted_parts {la : Lapack} (hla : LapackOk la) (p : DirParams)
    (ht : Monotonic p.t) (hT : 0 < p.T) (hkappa : 0 ≤ p.kappa) (hmo : 0 ≤ p.mo) (p0 : ℝ)
    (ks : (k : Fin K) → KIn (n k) (b k)) (H : (k : Fin K) → Mat (n k) (n k))
    (hk : ∀ k, Physical (ks k) (H k)) (hf : Occupied p ks)
    (hP : ∀ k, BoundedBelow p0 (ks k).P) :
    ∃ (L : (k : Fin K) → Mat (b k) (b k)) (c x y z : ℝ), (restarted la p ks).1 = -(x + y + z) ∧
      0 ≤ x ∧ 0 ≤ y ∧ 0 ≤ z ∧
      2 * p0 * ∑ k, (ks k).wk * eigenResidual (H k) (ks k).S (ks k).X (ks k).f (L k) ≤ x ∧
      p.kappa / (kB * p.T) * ∑ k, (ks k).wk * mismatch (ks k).hii (ks k).e
        (fun i => (smearFns p.t).delta ((p.mu - (ks k).e i) / (kB * p.T)) p.mo) c ≤ y ∧
      p.kappa * ∑ k, (ks k).wk * coupling (H k) (ks k).X (ks k).f (ks k).e ≤ z := by
  have hc : p.t ≠ .cold := by intro h; rw [h] at ht; exact ht
  have hkT : 0 < (kB : ℝ) * p.T := mul_pos kB_pos hT
  have fnn : ∀ k j, 0 ≤ (ks k).f j := fun k j => by
    rw [hf k j]; exact (C06_occupation_bounds p.t ht _ _ hmo).1
  refine ⟨fun k => la.solve (((ks k).S * (ks k).X)ᴴ * ((ks k).P * ((ks k).S * (ks k).X)))
      (((ks k).S * (ks k).X)ᴴ * ((ks k).P * (ks k).hx)), _, _, _, _,
      restarted_slope hla p hc ks H hk, ?_, ?_, ?_, ?_, le_of_eq rfl, ?_⟩
  · exact Finset.sum_nonneg fun k _ => mul_nonneg two_pos.le (mul_nonneg (hk k).weight.le
      (Finset.sum_nonneg fun j _ => mul_nonneg (fnn k j) (quad_nonneg (hk k).prec _ _)))
  · exact mul_nonneg (div_nonneg hkappa hkT.le) (Finset.sum_nonneg fun k _ =>
      mul_nonneg (hk k).weight.le (Finset.sum_nonneg fun i _ =>
        mul_nonneg (delta_nonneg p.t ht _ _ hmo) (sq_nonneg _)))
  · refine Finset.sum_nonneg fun k _ => mul_nonneg (mul_nonneg hkappa (hk k).weight.le)
      (Finset.sum_nonneg fun j _ => Finset.sum_nonneg fun i _ => ?_)
    split_ifs
    · exact le_rfl
    · exact mul_nonneg (neg_nonneg.2 (quot_nonpos p.t ht p.T p.mu p.mo hT hmo _ _ (hf k) i j))
        (Complex.normSq_nonneg _)
  · rw [Finset.mul_sum]
    refine Finset.sum_le_sum fun k _ => ?_
    rw [show 2 * p0 * ((ks k).wk * eigenResidual (H k) (ks k).S (ks k).X (ks k).f (la.solve
      (((ks k).S * (ks k).X)ᴴ * ((ks k).P * ((ks k).S * (ks k).X)))
      (((ks k).S * (ks k).X)ᴴ * ((ks k).P * (ks k).hx)))) = 2 * ((ks k).wk * (p0 *
        eigenResidual (H k) (ks k).S (ks k).X (ks k).f (la.solve
      (((ks k).S * (ks k).X)ᴴ * ((ks k).P * ((ks k).S * (ks k).X)))
      (((ks k).S * (ks k).X)ᴴ * ((ks k).P * (ks k).hx))))) by ring]
    refine mul_le_mul_of_nonneg_left (mul_le_mul_of_nonneg_left ?_ (hk k).weight.le) two_pos.le
    rw [eigenResidual, Finset.mul_sum]
    refine Finset.sum_le_sum fun j _ => ?_
    have := mul_le_mul_of_nonneg_left (quad_bound (hP k) ((ks k).hx - lmult la ((ks k).S * (ks k).X)
      (ks k).hx (ks k).P) j) (fnn k j)
    refine le_trans (le_of_eq ?_) this
    simp only [lmult, innerM_one, transformM, (hk k).hx]
    ring
  · rw [Finset.mul_sum]
    refine Finset.sum_le_sum fun k _ => ?_
    rw [← mul_assoc]
    refine mul_le_mul_of_nonneg_left ?_ (mul_nonneg hkappa (hk k).weight.le)
    rw [coupling]
    refine Finset.sum_le_sum fun j _ => Finset.sum_le_sum fun i _ => ?_
    rw [quot, (hk k).hx]
    by_cases hij : i = j
    · subst hij; simp
    · rw [if_neg hij]
      split_ifs with h
      · simp
      · rw [← neg_div, neg_sub]

section last
variable {α σ ρ δ : Type} [Arith α] {ops : Ops α σ ρ δ} {I0 I E : σ → Prop} {J G : ρ → σ → Prop}
  {D : ρ → δ → α → Prop}

/-- the last event is a conjugated direction of slope `sl` -/
def LastConj (tr : List (Ev α)) (sl : α) : Prop := ∃ pre j, tr = pre ++ [.conjugate j sl]

/-- `P` holds for all directions that are computed by a restart -/
def Restarts (ops : Ops α σ ρ δ) (I : σ → Prop) (J : ρ → σ → Prop) (P : ρ → δ → α → Prop) : Prop :=
  ∀ pt s sl dir s', I s → J pt s → ops.restarted pt s = (.ok (sl, dir), s') → P pt dir sl

theorem RunRule.body_last (hr : RunRule ops I0 I E J G D) {P : ρ → δ → α → Prop}
    (hP : Restarts ops I J P) {prm : NlcgParams α} {fuel rank i : Nat}
    {v v' : Vars α ρ δ} {w w' : NState α σ}
    (h : BodyRun ops prm fuel rank i v w (.ok v') w') (hI : I w.s) (hJ : J v.pt w.s)
    (hD : D v.pt v.dir v.slope) : w'.info.converged = false ∧
      (P v'.pt v'.dir v'.slope ∨ LastConj w'.trace v'.slope) := by
  generalize ho : (Res.ok v' : Res (Vars α ρ δ)) = o' at h
  cases h with
  | json o s1 file' g1 g2 => exact absurd ho.symm (by cases o <;> simp_all [Res.fail, Res.isOk])
  | hostPrint s1 s2 file' o g1 g2 g3 =>
    exact absurd ho.symm (by cases o <;> simp_all [Res.fail, Res.isOk])
  | search s1 s2 file' o st tr g1 g2 g3 g4 =>
    exact absurd ho.symm (by cases o <;> simp_all [Res.fail, Res.isOk])
  | searched s1 s2 file' r st _ dirs s' force' g1 g2 g3 g4 =>
    refine ⟨rfl, ?_⟩
    have a := hr.json g1 hI hJ
    have c := (hr.print v.pt s1 (a.soft trivial) (a.ok _ rfl)).of_eq g2
    have hl := wp_lineSearch hr.weaken (fun t s hs => hr.geo v.pt v.dir v.slope t s hs hD) _ _ _ _
      (c.soft trivial) _ _ g3
    have hI' := hl.soft trivial
    have hG := hl.ok r rfl
    cases g4 with
    | refresh o s4 h1 h2 => exact absurd ho.symm (by cases o <;> simp_all [Res.fail, Res.isOk])
    | ub pt s4 h1 h2 => cases ho
    | steepestFail pt s4 o s5 h1 h2 h3 h4 h5 =>
      exact absurd ho.symm (by cases o <;> simp_all [Res.fail, Res.isOk])
    | steepest pt s4 sl dir s5 h1 h2 h3 h4 =>
      cases ho
      have a := (hr.refresh r st.s hI' hG).of_eq h1
      exact Or.inl (hP pt s4 sl dir _ (a.soft trivial) (a.ok pt rfl) h4)
    | conjugateFail pt s4 o s5 h1 h2 h3 h4 h5 h6 =>
      exact absurd ho.symm (by cases o <;> simp_all [Res.fail, Res.isOk])
    | conjugate pt s4 fr sl dir s5 h1 h2 h3 h4 h5 h6 =>
      cases ho
      exact Or.inr ⟨_, i, (List.append_assoc _ _ _).symm⟩
    | rejectedFail pt s4 fr cc dir s5 o s6 h1 h2 h3 h4 h5 h6 h7 h8 =>
      exact absurd ho.symm (by cases o <;> simp_all [Res.fail, Res.isOk])
    | rejected pt s4 fr cc dir s5 sl dir6 s6 h1 h2 h3 h4 h5 h6 h7 =>
      cases ho
      have a := (hr.refresh r st.s hI' hG).of_eq h1
      have c := (hr.conjugated _ pt _ s4 _ _ (a.soft trivial) (a.ok pt rfl) hD).of_eq h5
      exact Or.inl (hP pt s5 sl dir6 _ (c.soft trivial) (c.ok _ rfl).1 h7)

/-- what is known at the end of a converged run -/
def ReachedBy (J : ρ → σ → Prop) (D P : ρ → δ → α → Prop) (tol : α) (w : NState α σ) : Prop :=
  ∃ pt dir sl pre i F S, J pt w.s ∧ D pt dir sl ∧ (Arith.abs sl <ᶠ tol) = true ∧
    w.trace = pre ++ [.start i sl, .report i F S sl] ∧ (P pt dir sl ∨ LastConj pre sl)

theorem RunRule.loop_last (hr : RunRule ops I0 I E J G D) {P : ρ → δ → α → Prop}
    (hP : Restarts ops I J P) {prm : NlcgParams α} {fuel rank : Nat}
    {n i : Nat} {v : Vars α ρ δ} {w : NState α σ} {o : Res (Info α)} {w' : NState α σ}
    (h : LoopRun ops prm fuel rank n i v w o w') : I w.s → J v.pt w.s → D v.pt v.dir v.slope →
    (P v.pt v.dir v.slope ∨ LastConj w.trace v.slope) → w.info.converged = false →
    ∀ info, o = .ok info → info.converged = true → ReachedBy J D P prm.tol w' := by
  have fl : ∀ {β : Type} (r : Res β) (P : Info α → Prop), r.isOk = false → ∀ info,
      (r.fail : Res (Info α)) = .ok info → P info := by
    intro β r P h info hi
    exact absurd hi (by cases r <;> simp_all [Res.fail, Res.isOk])
  induction h with
  | limit i v w =>
    intro hI hJ hD hl hc info hi hcv
    cases hi; rw [hc] at hcv; simp at hcv
  | success n i v w s1 s2 file' h1 h2 h3 =>
    intro hI hJ hD hl hc info hi hcv
    have a := hr.json h2 hI hJ
    have c := (hr.print v.pt s1 (a.soft trivial) (a.ok _ rfl)).of_eq h3
    exact ⟨v.pt, v.dir, v.slope, w.trace, i, _, _, c.ok _ rfl, hD, h1, rfl, hl⟩
  | successJson n i v w o s1 file' h1 h2 h3 => exact fun _ _ _ _ _ => fl o _ h3
  | successPrint n i v w s1 file' o s2 h1 h2 h3 h4 => exact fun _ _ _ _ _ => fl o _ h4
  | step n i v w v' w1 o w' h1 h2 h3 ih =>
    intro hI hJ hD hl hc
    have a := hr.body h2 hI hJ hD
    obtain ⟨c, d⟩ := a.ok v' rfl
    obtain ⟨q1, q2⟩ := hr.body_last hP h2 hI hJ hD
    exact ih (a.soft trivial) c d q2 q1
  | caught n i v w e w1 h1 h2 h3 =>
    intro hI hJ hD hl hc info hi hcv
    cases hi
    have : w1.info.converged = false := by
      generalize (Res.throw e : Res (Vars α ρ δ)) = o' at h2
      cases h2 <;> first | exact hc | rfl
    rw [this] at hcv; simp at hcv
  | uncaught n i v w o w1 h1 h2 h3 h4 => exact fun _ _ _ _ _ => fl o _ h3

/-- A converged run stopped at a direction that was computed by a restart, or at a conjugated one. -/
theorem RunRule.run_last (hr : RunRule ops I0 I E J G D) {P : ρ → δ → α → Prop}
    (hP : Restarts ops I J P) {prm : NlcgParams α} {fuel rank : Nat}
    {w : NState α σ} {info : Info α} {w' : NState α σ}
    (h : nlcg ops prm fuel rank w = some (.ok info, w')) (h0 : I0 w.s)
    (hcv : info.converged = true) : ReachedBy J D P prm.tol w' := by
  have fl : ∀ {β : Type} (r : Res β) (P : Info α → Prop), r.isOk = false → ∀ info,
      (r.fail : Res (Info α)) = .ok info → P info := by
    intro β r P h info hi
    exact absurd hi (by cases r <;> simp_all [Res.fail, Res.isOk])
  generalize ho : (Res.ok info : Res (Info α)) = o at h
  cases nlcg_run ops prm fuel rank w o w' h with
  | construct o s1 h1 h2 => exact fl o (fun _ => _) h2 info ho.symm
  | setup s1 o s2 h1 h2 h3 => exact fl o (fun _ => _) h3 info ho.symm
  | restarted s1 pt s2 o s3 h1 h2 h3 h4 => exact fl o (fun _ => _) h4 info ho.symm
  | loop s1 pt s2 slope dir s3 o w' h1 h2 h3 h4 =>
    have a := ((hr.construct w.s h0).of_eq h1).soft trivial
    have c := (hr.setup s1 a).of_eq h2
    have e := (hr.restarted pt s2 (c.ok pt rfl).1 (c.ok pt rfl).2).of_eq h3
    exact hr.loop_last hP h4 (e.soft trivial) (e.ok _ rfl).1 (e.ok _ rfl).2
      (Or.inl (hP pt s2 slope dir s3 (c.ok pt rfl).1 (c.ok pt rfl).2 h3)) rfl info ho.symm hcv

/-- a conjugated direction is only computed if `restart` does not divide the iteration -/
theorem Spec.Trace.conjugate_not_dvd {restart : Int} {tol : α} {n i : Nat} {slope : α} {flag : Bool}
    {tr : List (Ev α)} {e : RunEnd} (h : Trace restart tol n i slope flag tr e) (j : Nat) (sl : α)
    (hm : Ev.conjugate j sl ∈ tr) : ¬ restart ∣ (j : Int) := by
  induction h with
  | limit => simp at hm
  | converged => simp at hm
  | slopeFailed => simp at hm
  | descentFailed => simp at hm
  | step n i slope flag F S flag1 dirs slope' flag' rest e h1 h2 h3 h4 h5 ih =>
    rcases List.mem_append.1 hm with q | q
    · rcases List.mem_append.1 q with q' | q'
      · simp at q'
      · cases h4 with
        | steepest => simp at q'
        | conjugate s g1 g2 => have := List.mem_singleton.1 q'; cases this; exact g1
        | rejected c s g1 g2 =>
          rcases List.mem_cons.1 q' with q2 | q2
          · cases q2; exact g1
          · simp at q2
    · exact ih q

end last

end Nlcg
