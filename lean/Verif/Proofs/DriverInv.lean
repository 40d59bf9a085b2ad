import Verif.Proofs.DriverTrace
import Verif.Proofs.LineSearchReal
import Verif.Spec.Log
import Mathlib.Data.List.Range

/-! Invariants of the driver: step log, number of searches, record, energies, termination. -/

namespace Nlcg
open Arith
variable {α σ ρ δ : Type} [Arith α]

namespace Spec
variable {α : Type}

theorem starts_append (a b : List (Ev α)) : starts (a ++ b) = starts a ++ starts b := by
  induction a with
  | nil => rfl
  | cons x a ih => cases x <;> simp [starts, ih]

theorem reports_append (a b : List (Ev α)) : reports (a ++ b) = reports a ++ reports b := by
  induction a with
  | nil => rfl
  | cons x a ih => cases x <;> simp [reports, ih]

theorem searches_append (a b : List (Ev α)) : searches (a ++ b) = searches a ++ searches b := by
  induction a with
  | nil => rfl
  | cons x a ih => cases x <;> simp [searches, ih]

end Spec

open Spec

/-- the events of a choice of direction are neither starts, reports nor searches -/
theorem DirRun.proj {ops : Ops α σ ρ δ} {prm : NlcgParams α} {i : Nat} {v : Vars α ρ δ} {r : ρ}
    {st : LSState α σ} {o : Res (Vars α ρ δ)} {dirs : List (Ev α)} {s' : σ} {force' : Bool}
    (h : DirRun ops prm i v r st o dirs s' force') :
    starts dirs = [] ∧ reports dirs = [] ∧ searches dirs = [] := by
  cases h <;> exact ⟨rfl, rfl, rfl⟩

theorem DirRun.no_failed {ops : Ops α σ ρ δ} {prm : NlcgParams α} {i : Nat} {v : Vars α ρ δ} {r : ρ}
    {st : LSState α σ} {o : Res (Vars α ρ δ)} {dirs : List (Ev α)} {s' : σ} {force' : Bool}
    (h : DirRun ops prm i v r st o dirs s' force') (j : Nat) (e : Exc) : Ev.failed j e ∉ dirs := by
  cases h <;> simp

theorem Spec.Directions.no_failed {restart : Int} {i : Nat} {f f' : Bool} {dirs : List (Ev α)} {s : α}
    (h : Directions restart i f dirs s f') (j : Nat) (e : Exc) : Ev.failed j e ∉ dirs := by
  cases h <;> simp

/-! ## Number of line searches -/

theorem BodyRun.searches_le {ops : Ops α σ ρ δ} {prm : NlcgParams α} {fuel rank i : Nat}
    {v : Vars α ρ δ} {w : NState α σ} {o : Res (Vars α ρ δ)} {w' : NState α σ}
    (h : BodyRun ops prm fuel rank i v w o w') :
    (searches w'.trace).length ≤ (searches w.trace).length + 1 := by
  cases h with
  | json => simp
  | hostPrint => simp [searchStart, searches_append, searches]
  | search s1 s2 file' o st tr h1 h2 h3 h4 h5 h6 =>
    have : (searches tr).length ≤ 1 := by
      cases o with
      | ok => simp [Res.isOk] at h4
      | throw e => rw [h5 e rfl]; simp [searches]
      | ub => rw [h6 (Or.inl rfl)]; simp [searches]
      | abort => rw [h6 (Or.inr rfl)]; simp [searches]
    simpa [searchStart, searches_append, searches] using this
  | searched s1 s2 file' r st _ dirs s' force' h1 h2 h3 h4 =>
    obtain ⟨-, -, hd⟩ := h4.proj
    simp [searchStart, searches_append, searches, hd]

theorem LoopRun.searches_le {ops : Ops α σ ρ δ} {prm : NlcgParams α} {fuel rank : Nat}
    {n i : Nat} {v : Vars α ρ δ} {w : NState α σ} {o : Res (Info α)} {w' : NState α σ}
    (h : LoopRun ops prm fuel rank n i v w o w') :
    (searches w'.trace).length ≤ (searches w.trace).length + n := by
  have hst : ∀ (i : Nat) (s : α) (w : NState α σ), searches (started i s w).trace = searches w.trace := by
    intro i s w; simp [started, searches_append, searches]
  induction h with
  | limit => simp
  | success => simp [searches_append, searches]
  | successJson => simp [searches_append, searches]
  | successPrint => simp [searches_append, searches]
  | step n i v w v' w1 o w' h1 h2 h3 ih =>
    have := h2.searches_le; rw [hst] at this; omega
  | caught n i v w e w1 h1 h2 h3 => have := h2.searches_le; rw [hst] at this; omega
  | uncaught n i v w o w1 h1 h2 h3 h4 => have := h2.searches_le; rw [hst] at this; omega

/-! ## Step log -/

/-- what one call of the step log does to the file -/
theorem JsonRun.file {ops : Ops α σ ρ δ} {rank i : Nat} {slope : α} {pt : ρ} {w : NState α σ}
    {o : Res Unit} {s' : σ} {file' : List (JsonRec α)}
    (h : JsonRun ops rank i slope pt w o s' file') :
    (rank ≠ 0 → file' = w.file) ∧ (rank = 0 → ∃ r : JsonRec α, file' = w.file ++ [r] ∧
      r.step = i ∧ r.slope = slope ∧ r.F = ops.getF w.s ∧ r.entropy = ops.getS w.s ∧
      (r.bands = true ↔ i % 10 = 0 ∧ o = .ok ())) := by
  obtain ⟨-, h2⟩ := h
  refine ⟨fun hr => by rw [h2, if_neg hr], fun hr => ?_⟩
  rw [if_pos hr] at h2
  exact ⟨_, h2, rfl, rfl, rfl, rfl, by simp⟩

/-- `file'` is `file` with one more record for iteration `i` -/
def FileStep (rank i : Nat) (slope : α) (file file' : List (JsonRec α)) : Prop :=
  (rank ≠ 0 → file' = file) ∧ (rank = 0 → ∃ r : JsonRec α, file' = file ++ [r] ∧
      r.step = i ∧ r.slope = slope ∧ (r.bands = true → i % 10 = 0))

theorem JsonRun.fileStep {ops : Ops α σ ρ δ} {rank i : Nat} {slope : α} {pt : ρ} {w : NState α σ}
    {o : Res Unit} {s' : σ} {file' : List (JsonRec α)}
    (h : JsonRun ops rank i slope pt w o s' file') : FileStep rank i slope w.file file' := by
  obtain ⟨h1, h2⟩ := h.file
  refine ⟨h1, fun hr => ?_⟩
  obtain ⟨r, e1, e2, e3, -, -, e4⟩ := h2 hr
  exact ⟨r, e1, e2, e3, fun h => (e4.1 h).1⟩

theorem BodyRun.file {ops : Ops α σ ρ δ} {prm : NlcgParams α} {fuel rank i : Nat}
    {v : Vars α ρ δ} {w : NState α σ} {o : Res (Vars α ρ δ)} {w' : NState α σ}
    (h : BodyRun ops prm fuel rank i v w o w') :
    ∃ oj s1, JsonRun ops rank i v.slope v.pt w oj s1 w'.file ∧ starts w'.trace = starts w.trace := by
  cases h with
  | json o s1 file' h1 => exact ⟨_, _, h1, rfl⟩
  | hostPrint s1 s2 file' o h1 h2 h3 =>
    exact ⟨_, _, h1, by simp [searchStart, starts_append, starts]⟩
  | search s1 s2 file' o st tr h1 h2 h3 h4 h5 h6 =>
    refine ⟨_, _, h1, ?_⟩
    have : starts tr = [] := by
      cases o with
      | ok => simp [Res.isOk] at h4
      | throw e => rw [h5 e rfl]; rfl
      | ub => rw [h6 (Or.inl rfl)]; rfl
      | abort => rw [h6 (Or.inr rfl)]; rfl
    simp [searchStart, starts_append, starts, this]
  | searched s1 s2 file' r st _ dirs s' force' h1 h2 h3 h4 =>
    exact ⟨_, _, h1, by simp [searchStart, starts_append, starts, h4.proj.1]⟩

/-- The records added by the loop are exactly the started iterations, in order. -/
theorem LoopRun.file {ops : Ops α σ ρ δ} {prm : NlcgParams α} {fuel rank : Nat}
    {n i : Nat} {v : Vars α ρ δ} {w : NState α σ} {o : Res (Info α)} {w' : NState α σ}
    (h : LoopRun ops prm fuel rank n i v w o w') :
    ∃ (k : Nat) (new : List (JsonRec α)) (st : List (Nat × α)), k ≤ n ∧
      starts w'.trace = starts w.trace ++ st ∧ st.map (·.1) = List.range' i k ∧
      (rank ≠ 0 → w'.file = w.file) ∧
      (rank = 0 → w'.file = w.file ++ new ∧ new.map (fun r => (r.step, r.slope)) = st ∧
        (∀ r ∈ new, r.bands = true → r.step % 10 = 0) ∧
        ((∀ pt s, (ops.gather pt s).1 = .ok ()) → ∀ r ∈ new, (r.bands = true ↔ r.step % 10 = 0))) := by
  -- one iteration that ends the run
  have one : ∀ (n i : Nat) (v : Vars α ρ δ) (w w' : NState α σ) (oj : Res Unit) (s1 : σ),
      JsonRun ops rank i v.slope v.pt w oj s1 w'.file →
      starts w'.trace = starts w.trace ++ [(i, v.slope)] →
      ∃ (k : Nat) (new : List (JsonRec α)) (st : List (Nat × α)), k ≤ n + 1 ∧
        starts w'.trace = starts w.trace ++ st ∧ st.map (·.1) = List.range' i k ∧
        (rank ≠ 0 → w'.file = w.file) ∧
        (rank = 0 → w'.file = w.file ++ new ∧ new.map (fun r => (r.step, r.slope)) = st ∧
          (∀ r ∈ new, r.bands = true → r.step % 10 = 0) ∧
          ((∀ pt s, (ops.gather pt s).1 = .ok ()) → ∀ r ∈ new, (r.bands = true ↔ r.step % 10 = 0))) := by
    intro n i v w w' oj s1 hj ht
    obtain ⟨hf1, hf2⟩ := hj.file
    by_cases hr : rank = 0
    · obtain ⟨r, e1, e2, e3, -, -, e4⟩ := hf2 hr
      refine ⟨1, [r], [(i, v.slope)], by omega, ht, by simp, hf1, fun _ => ⟨e1, by simp [e2, e3], ?_, ?_⟩⟩
      · simp only [List.mem_singleton]; rintro _ rfl hb; rw [e2]; exact (e4.1 hb).1
      · simp only [List.mem_singleton]; rintro hg _ rfl
        rw [e4, e2]
        refine ⟨fun h => h.1, fun h => ⟨h, ?_⟩⟩
        have := hj.1
        rw [if_pos h] at this
        have h2 := hg v.pt w.s
        rw [← this] at h2
        exact h2
    · exact ⟨1, [], [(i, v.slope)], by omega, ht, by simp, hf1, fun h => absurd h hr⟩
  induction h with
  | limit i v w => exact ⟨0, [], [], by simp, by simp, by simp, fun _ => rfl, fun _ => by simp⟩
  | success n i v w s1 s2 file' h1 h2 h3 =>
    exact one n i v w _ _ _ h2 (by simp [starts_append, starts])
  | successJson n i v w o s1 file' h1 h2 h3 =>
    exact one n i v w _ _ _ h2 (by simp [starts_append, starts])
  | successPrint n i v w s1 file' o s2 h1 h2 h3 h4 =>
    exact one n i v w _ _ _ h2 (by simp [starts_append, starts])
  | caught n i v w e w1 h1 h2 h3 =>
    obtain ⟨oj, s1, hj, ht⟩ := h2.file
    exact one n i v w w1 oj s1 hj (by rw [ht]; simp [started, starts_append, starts])
  | uncaught n i v w o w1 h1 h2 h3 h4 =>
    obtain ⟨oj, s1, hj, ht⟩ := h2.file
    exact one n i v w w1 oj s1 hj (by rw [ht]; simp [started, starts_append, starts])
  | step n i v w v' w1 o w' h1 h2 h3 ih =>
    obtain ⟨oj, s1, hj, ht⟩ := h2.file
    obtain ⟨k0, new0, st0, -, a2, a3, a4, a5⟩ :=
      one n i v w w1 oj s1 hj (by rw [ht]; simp [started, starts_append, starts])
    obtain ⟨k, new, st, b1, b2, b3, b4, b5⟩ := ih
    have hst0 : st0 = [(i, v.slope)] := by
      have : starts w1.trace = starts w.trace ++ [(i, v.slope)] := by
        rw [ht]; simp [started, starts_append, starts]
      rw [this] at a2
      exact (List.append_cancel_left a2).symm
    refine ⟨k + 1, new0 ++ new, st0 ++ st, by omega, by rw [b2, a2]; simp, ?_, ?_, ?_⟩
    · rw [List.map_append, b3, hst0, List.range'_succ]; simp
    · intro hr; rw [b4 hr, a4 hr]
    · intro hr
      obtain ⟨c1, c2, c3, c4⟩ := a5 hr
      obtain ⟨d1, d2, d3, d4⟩ := b5 hr
      refine ⟨by rw [d1, c1]; simp, by rw [List.map_append, c2, d2], ?_, ?_⟩
      · intro r hm; rcases List.mem_append.1 hm with h | h
        · exact c3 r h
        · exact d3 r h
      · intro hg r hm; rcases List.mem_append.1 hm with h | h
        · exact c4 hg r h
        · exact d4 hg r h

/-! ## The host's print-out and the gathers leave the energies alone -/

structure Ops.Quiet (ops : Ops α σ ρ δ) : Prop where
  gatherF : ∀ pt s, ops.getF (ops.gather pt s).2 = ops.getF s
  gatherS : ∀ pt s, ops.getS (ops.gather pt s).2 = ops.getS s
  printF : ∀ s, ops.getF (ops.hostPrint s).2 = ops.getF s
  printS : ∀ s, ops.getS (ops.hostPrint s).2 = ops.getS s

theorem JsonRun.quiet {ops : Ops α σ ρ δ} (hq : ops.Quiet) {rank i : Nat} {slope : α} {pt : ρ}
    {w : NState α σ} {o : Res Unit} {s' : σ} {file' : List (JsonRec α)}
    (h : JsonRun ops rank i slope pt w o s' file') :
    ops.getF s' = ops.getF w.s ∧ ops.getS s' = ops.getS w.s := by
  obtain ⟨h1, -⟩ := h
  split at h1
  · have a := hq.gatherF pt w.s
    have b := hq.gatherS pt w.s
    rw [← h1] at a b
    exact ⟨a, b⟩
  · cases h1; exact ⟨rfl, rfl⟩

theorem Ops.Quiet.print {ops : Ops α σ ρ δ} (hq : ops.Quiet) {s s' : σ} {o : Res Unit}
    (h : ops.hostPrint s = (o, s')) : ops.getF s' = ops.getF s ∧ ops.getS s' = ops.getS s := by
  have a := hq.printF s
  have b := hq.printS s
  rw [h] at a b
  exact ⟨a, b⟩

/-- a caught exception comes from the line search -/
theorem BodyRun.caught_inv {ops : Ops α σ ρ δ} (hc : ops.Clean) {prm : NlcgParams α}
    {fuel rank i : Nat} {v : Vars α ρ δ} {w : NState α σ} {e : Exc} {w' : NState α σ}
    (h : BodyRun ops prm fuel rank i v w (.throw e) w') (he : e = .descentError ∨ e = .slopeError) :
    ∃ s1 s2 st, JsonRun ops rank i v.slope v.pt w (.ok ()) s1 w'.file ∧
      ops.hostPrint s1 = (.ok (), s2) ∧
      lineSearch { G := ops.geo v.pt v.dir, getF := ops.getF }
        { tTrial := lit (2 / 10), tau := prm.tau } fuel v.slope
        { s := s2, forceRestart := w.force, evals := [] } = some (.throw e, st) ∧
      w' = { searchStart ops i v.slope w s1 s2 w'.file with
             s := st.s, force := st.forceRestart
             trace := (searchStart ops i v.slope w s1 s2 w'.file).trace ++
               [.search i w.force, .failed i e] } := by
  have bad : ∀ {β : Type} {o : Res β}, o.Clean → (Res.throw e : Res (Vars α ρ δ)) ≠ o.fail := by
    intro β o ho heq
    rcases he with rfl | rfl
    · exact (Res.fail_clean (γ := Vars α ρ δ) ho).2 heq.symm
    · exact (Res.fail_clean (γ := Vars α ρ δ) ho).1 heq.symm
  generalize ho : (Res.throw e : Res (Vars α ρ δ)) = o' at h
  cases h with
  | json o s1 file' g1 g2 => exact absurd ho (bad (g1.clean hc))
  | hostPrint s1 s2 file' o g1 g2 g3 =>
    have := hc.hostPrint s1; rw [g2] at this
    exact absurd ho (bad this)
  | search s1 s2 file' o st tr g1 g2 g3 g4 g5 g6 =>
    cases o with
    | throw e' =>
      cases ho
      obtain rfl := g5 _ rfl
      exact ⟨s1, s2, st, g1, g2, g3, rfl⟩
    | _ => simp [Res.fail] at ho
  | searched s1 s2 file' r st _ dirs s' force' g1 g2 g3 g4 =>
    have := (g4.spec hc).1
    rcases he with rfl | rfl
    · exact absurd ho.symm this.2
    · exact absurd ho.symm this.1

/-- rank-0 records and reports agree -/
theorem LoopRun.log_eq_reports {ops : Ops α σ ρ δ} (hc : ops.Clean) (hq : ops.Quiet) {prm : NlcgParams α}
    {fuel : Nat} {n i : Nat} {v : Vars α ρ δ} {w : NState α σ} {o : Res (Info α)} {w' : NState α σ}
    (h : LoopRun ops prm fuel 0 n i v w o w') :
    (w.file.map fun r => (r.step, r.F, r.entropy, r.slope)) = reports w.trace →
    ∀ info, o = .ok info →
    (w'.file.map fun r => (r.step, r.F, r.entropy, r.slope)) = reports w'.trace := by
  have body : ∀ (i : Nat) (v : Vars α ρ δ) (w w1 : NState α σ) (s1 : σ),
      JsonRun ops 0 i v.slope v.pt w (.ok ()) s1 w1.file →
      reports w1.trace = reports w.trace ++ [(i, ops.getF s1, ops.getS s1, v.slope)] →
      (w.file.map fun r => (r.step, r.F, r.entropy, r.slope)) = reports w.trace →
      (w1.file.map fun r => (r.step, r.F, r.entropy, r.slope)) = reports w1.trace := by
    intro i v w w1 s1 hj hr hw
    obtain ⟨r, e1, e2, e3, e4, e5, -⟩ := hj.file.2 rfl
    rw [e1, hr, ← hw]
    simp [e2, e3, e4, e5, (hj.quiet hq).1, (hj.quiet hq).2]
  induction h with
  | limit i v w => intro hw info _; exact hw
  | success n i v w s1 s2 file' h1 h2 h3 =>
    intro hw info _
    refine body i v w _ s1 h2 ?_ hw
    simp [reports_append, reports, (h2.quiet hq).1, (h2.quiet hq).2]
  | successJson n i v w o s1 file' h1 h2 h3 => exact fun _ info hi => absurd hi (Res.fail_ne_ok _ _)
  | successPrint n i v w s1 file' o s2 h1 h2 h3 h4 =>
    exact fun _ info hi => absurd hi (Res.fail_ne_ok _ _)
  | step n i v w v' w1 o w' h1 h2 h3 ih =>
    intro hw info hi
    refine ih ?_ info hi
    generalize ho : (Res.ok v' : Res (Vars α ρ δ)) = o' at h2
    cases h2 with
    | json o s1 file' g1 g2 => exact absurd ho.symm (Res.fail_ne_ok _ _)
    | hostPrint s1 s2 file' o g1 g2 g3 => exact absurd ho.symm (Res.fail_ne_ok _ _)
    | search s1 s2 file' o st tr g1 => exact absurd ho.symm (Res.fail_ne_ok _ _)
    | searched s1 s2 file' r st _ dirs s' force' g1 g2 g3 g4 =>
      refine body i v (started i v.slope w) _ s1 g1 ?_ ?_
      · simp [searchStart, reports_append, reports, g4.proj.2.1]
      · simpa [started, reports_append, reports] using hw
  | caught n i v w e w1 h1 h2 h3 =>
    intro hw info _
    obtain ⟨s1, s2, st, g1, g2, g3, g4⟩ := h2.caught_inv hc h3
    refine body i v (started i v.slope w) w1 s1 g1 ?_ ?_
    · rw [g4]; simp [searchStart, reports_append, reports]
    · simpa [started, reports_append, reports] using hw
  | uncaught n i v w o w1 h1 h2 h3 h4 => exact fun _ info hi => absurd hi (Res.fail_ne_ok _ _)

/-! ## The returned record -/

/-- What the record of a run that ended normally says; `i` is the first iteration. -/
theorem LoopRun.record {ops : Ops α σ ρ δ} (hc : ops.Clean) (hq : ops.Quiet) {prm : NlcgParams α}
    {fuel rank : Nat} {n i : Nat} {v : Vars α ρ δ} {w : NState α σ} {o : Res (Info α)} {w' : NState α σ}
    (h : LoopRun ops prm fuel rank n i v w o w') : ∀ info, o = .ok info →
    (n = 0 → info = w.info) ∧
    (n ≠ 0 → ∃ vals slope, info.vals = some vals ∧ vals.iter < i + n ∧ i ≤ vals.iter ∧
      Ev.start vals.iter slope ∈ w'.trace ∧ vals.tolerance = slope +ᶠ lit (-1) ∧
      (vals.iter, vals.F, vals.S, slope) ∈ reports w'.trace ∧
      (info.converged = true → (Arith.abs slope <ᶠ prm.tol) = true ∧
        vals.F = ops.getF w'.s ∧ vals.S = ops.getS w'.s) ∧
      (∀ j, Ev.failed j .slopeError ∉ w.trace → Ev.failed j .slopeError ∈ w'.trace →
        vals.F = ops.getF w'.s ∧ vals.S = ops.getS w'.s)) := by
  induction h with
  | limit i v w => rintro info hi; cases hi; exact ⟨fun _ => rfl, fun h => absurd rfl h⟩
  | success n i v w s1 s2 file' h1 h2 h3 =>
    rintro info hi; cases hi
    refine ⟨by simp, fun _ => ⟨_, v.slope, rfl, by simp, by simp, by simp, rfl, by simp [reports_append, reports], fun _ => ⟨h1, ?_⟩, fun _ _ _ => ?_⟩⟩
    all_goals
      simp only
      rw [(hq.print h3).1, (hq.print h3).2, (h2.quiet hq).1, (h2.quiet hq).2]
      exact ⟨rfl, rfl⟩
  | successJson n i v w o s1 file' h1 h2 h3 => exact fun info hi => absurd hi (Res.fail_ne_ok _ _)
  | successPrint n i v w s1 file' o s2 h1 h2 h3 h4 =>
    exact fun info hi => absurd hi (Res.fail_ne_ok _ _)
  | step n i v w v' w1 o w' h1 h2 h3 ih =>
    intro info hi
    refine ⟨by simp, fun _ => ?_⟩
    obtain ⟨ih1, ih2⟩ := ih info hi
    obtain ⟨F, S, flag1, dirs, ht, -, -, hd, hcv⟩ := (h2.spec hc).1 v' rfl
    by_cases hn : n = 0
    · subst hn
      have := ih1 rfl
      subst this
      cases h3
      generalize ho : (Res.ok v' : Res (Vars α ρ δ)) = o' at h2
      cases h2 with
      | json o s1 file' g1 g2 => exact absurd ho.symm (Res.fail_ne_ok _ _)
      | hostPrint s1 s2 file' o g1 g2 g3 => exact absurd ho.symm (Res.fail_ne_ok _ _)
      | search s1 s2 file' o st tr g1 => exact absurd ho.symm (Res.fail_ne_ok _ _)
      | searched s1 s2 file' r st _ dirs s' force' g1 g2 g3 g4 =>
        refine ⟨_, v.slope, rfl, by simp, by simp, by simp [searchStart, started], rfl,
          by simp [searchStart, reports_append, reports], by simp [searchStart, printInfo], ?_⟩
        intro j hj hm
        have hnf := g4.no_failed j .slopeError
        simp [searchStart, started, hj, hnf] at hm
    · obtain ⟨vals, slope, e1, e2, e3, e4, e5, e6, e7, e8⟩ := ih2 hn
      refine ⟨vals, slope, e1, by omega, by omega, e4, e5, e6, e7, fun j hj hm => e8 j ?_ hm⟩
      rw [ht]
      have hnf := hd.no_failed j .slopeError
      simp [started, hj, hnf]
  | caught n i v w e w1 h1 h2 h3 =>
    rintro info hi; cases hi
    refine ⟨by simp, fun _ => ?_⟩
    obtain ⟨s1, s2, st, g1, g2, g3, g4⟩ := h2.caught_inv hc h3
    rw [g4]
    refine ⟨_, v.slope, rfl, by simp, by simp, by simp [searchStart, started], rfl,
          by simp [searchStart, reports_append, reports], by simp [searchStart, printInfo], ?_⟩
    intro j hj hm
    have he : e = .slopeError := by
      simp [searchStart, started] at hm
      rcases hm with hm | hm
      · exact absurd hm hj
      · exact hm.2.symm
    subst he
    have hst := ((lineSearch_flags _ _ _ _ _ _ _ (fun t s => hc.geo v.pt v.dir t s) g3).1 rfl).2
    rw [hst]
    simp only
    rw [(hq.print g2).1, (hq.print g2).2]
    exact ⟨rfl, rfl⟩
  | uncaught n i v w o w1 h1 h2 h3 h4 => exact fun info hi => absurd hi (Res.fail_ne_ok _ _)

/-! ## No undefined behaviour -/

structure Ops.Defined (ops : Ops α σ ρ δ) : Prop where
  construct : ∀ s, (ops.construct s).1 ≠ .ub
  setup : ∀ s, (ops.setup s).1 ≠ .ub
  restarted : ∀ pt s, (ops.restarted pt s).1 ≠ .ub
  conjugated : ∀ fr pt dir s, (ops.conjugated fr pt dir s).1 ≠ .ub
  geo : ∀ pt dir t s, (ops.geo pt dir t s).1 ≠ .ub
  refresh : ∀ pt s, (ops.refresh pt s).1 ≠ .ub
  gather : ∀ pt s, (ops.gather pt s).1 ≠ .ub
  hostPrint : ∀ s, (ops.hostPrint s).1 ≠ .ub

theorem lineSearch_ne_ub {env : LSEnv α σ ρ} (hG : ∀ t s, (env.G t s).1 ≠ .ub) {p : LSParams α}
    {fuel : Nat} {slope : α} {st st' : LSState α σ} {o : Res ρ}
    (h : lineSearch env p fuel slope st = some (o, st')) : o ≠ .ub := by
  have hfail : ∀ s, ¬ FailedEval env (.ub : Res ρ) s := by
    rintro s ⟨t, s0, ⟨e, he, -⟩ | ⟨-, hg⟩ | ⟨he, -⟩⟩
    · simp at he
    · exact hG t s0 (by rw [hg])
    · simp at he
  rintro rfl
  rcases lineSearch_inv env p fuel slope st st' _ h with ⟨_, h1, _⟩ | ⟨_, ⟨h1, _⟩ | ⟨stm, h1, h2⟩⟩
  · simp at h1
  · rcases (qline_spec env p fuel slope st st' _ h1).2 with ⟨r', hr, -⟩ | ⟨h3, -⟩ | ⟨-, -, h3⟩
    · simp at hr
    · simp at h3
    · exact absurd h3 (hfail _)
  · rcases btSearch_spec env p fuel _ stm st' _ h2 with ⟨_, h3, _⟩ | ⟨_, k, stn, hk, hk2, hc⟩
    · simp at h3
    · rcases hc with ⟨r', hr, -⟩ | ⟨-, h4, ⟨-, h5, -⟩ | ⟨h5, h6⟩⟩ | ⟨-, -, -, h5⟩
      · simp at hr
      · simp at h5
      · obtain ⟨g1, -⟩ := evalG_ok h6
        exact absurd (by rw [g1]) (hG (lit 0) _)
      · exact absurd h5 (hfail _)

theorem Res.fail_ne_ub {β γ : Type} {o : Res β} (h1 : o.isOk = false) (h2 : o ≠ .ub) :
    (o.fail : Res γ) ≠ .ub := by
  cases o <;> simp_all [Res.fail, Res.isOk]

theorem JsonRun.ne_ub {ops : Ops α σ ρ δ} (hd : ops.Defined) {rank i : Nat} {slope : α} {pt : ρ}
    {w : NState α σ} {o : Res Unit} {s' : σ} {file' : List (JsonRec α)}
    (h : JsonRun ops rank i slope pt w o s' file') : o ≠ .ub := by
  obtain ⟨h1, -⟩ := h
  split at h1
  · have := hd.gather pt w.s; rw [← h1] at this; exact this
  · cases h1; simp

theorem BodyRun.ne_ub {ops : Ops α σ ρ δ} (hd : ops.Defined) {prm : NlcgParams α}
    (hr : prm.restart ≠ 0) {fuel rank i : Nat}
    {v : Vars α ρ δ} {w : NState α σ} {o : Res (Vars α ρ δ)} {w' : NState α σ}
    (h : BodyRun ops prm fuel rank i v w o w') : o ≠ .ub := by
  cases h with
  | json o s1 file' h1 h2 => exact Res.fail_ne_ub h2 (h1.ne_ub hd)
  | hostPrint s1 s2 file' o h1 h2 h3 =>
    refine Res.fail_ne_ub h3 ?_
    have := hd.hostPrint s1; rw [h2] at this; exact this
  | search s1 s2 file' o st tr h1 h2 h3 h4 h5 h6 =>
    exact Res.fail_ne_ub h4 (lineSearch_ne_ub (fun t s => hd.geo v.pt v.dir t s) h3)
  | searched s1 s2 file' r st _ dirs s' force' h1 h2 h3 h4 =>
    cases h4 with
    | refresh o s4 g1 g2 =>
      refine Res.fail_ne_ub g2 ?_
      have := hd.refresh r st.s; rw [g1] at this; exact this
    | ub pt s4 g1 g2 => exact absurd g2 hr
    | steepestFail pt s4 o s5 g1 g2 g3 g4 g5 =>
      refine Res.fail_ne_ub g5 ?_
      have := hd.restarted pt s4; rw [g4] at this; exact this
    | steepest => simp
    | conjugateFail pt s4 o s5 g1 g2 g3 g4 g5 g6 =>
      refine Res.fail_ne_ub g6 ?_
      have := hd.conjugated v.fr pt v.dir s4; rw [g5] at this; exact this
    | conjugate => simp
    | rejectedFail pt s4 fr c dir s5 o s6 g1 g2 g3 g4 g5 g6 g7 g8 =>
      refine Res.fail_ne_ub g8 ?_
      have := hd.restarted pt s5; rw [g7] at this; exact this
    | rejected => simp

theorem LoopRun.ne_ub {ops : Ops α σ ρ δ} (hd : ops.Defined) {prm : NlcgParams α}
    (hr : prm.restart ≠ 0) {fuel rank : Nat} {n i : Nat} {v : Vars α ρ δ} {w : NState α σ}
    {o : Res (Info α)} {w' : NState α σ} (h : LoopRun ops prm fuel rank n i v w o w') : o ≠ .ub := by
  induction h with
  | limit => simp
  | success => simp
  | successJson n i v w o s1 file' h1 h2 h3 => exact Res.fail_ne_ub h3 (h2.ne_ub hd)
  | successPrint n i v w s1 file' o s2 h1 h2 h3 h4 =>
    refine Res.fail_ne_ub h4 ?_
    have := hd.hostPrint s1; rw [h3] at this; exact this
  | step n i v w v' w1 o w' h1 h2 h3 ih => exact ih
  | caught => simp
  | uncaught n i v w o w1 h1 h2 h3 h4 => exact Res.fail_ne_ub h3 (h2.ne_ub hd hr)

/-! ## Energies -/

/-- Evaluating a point gives its energy `E`, evaluating the current point again (step 0) reproduces
its energy, and nothing but an evaluation changes the free energy. -/
structure Ops.Reproducible (ops : Ops α σ ρ δ) (E : ρ → α) : Prop where
  setup : ∀ s r s', ops.setup s = (.ok r, s') → ops.getF s' = E r
  geo : ∀ pt dir t s r s', ops.geo pt dir t s = (.ok r, s') → ops.getF s' = E r
  zero : ∀ pt dir s r s', ops.geo pt dir (lit 0) s = (.ok r, s') → E r = E pt
  refresh : ∀ r s pt s', ops.refresh r s = (.ok pt, s') → E pt = E r ∧ ops.getF s' = ops.getF s
  restarted : ∀ pt s, ops.getF (ops.restarted pt s).2 = ops.getF s
  conjugated : ∀ fr pt dir s, ops.getF (ops.conjugated fr pt dir s).2 = ops.getF s
  gather : ∀ pt s, ops.getF (ops.gather pt s).2 = ops.getF s
  hostPrint : ∀ s, ops.getF (ops.hostPrint s).2 = ops.getF s

theorem JsonRun.getF {ops : Ops α σ ρ δ} {E : ρ → α} (hE : ops.Reproducible E) {rank i : Nat}
    {slope : α} {pt : ρ} {w : NState α σ} {o : Res Unit} {s' : σ} {file' : List (JsonRec α)}
    (h : JsonRun ops rank i slope pt w o s' file') : ops.getF s' = ops.getF w.s := by
  obtain ⟨h1, -⟩ := h
  split at h1
  · have a := hE.gather pt w.s
    rw [← h1] at a
    exact a
  · cases h1; rfl

theorem DirRun.getF {ops : Ops α σ ρ δ} {E : ρ → α} (hE : ops.Reproducible E) {prm : NlcgParams α}
    {i : Nat} {v : Vars α ρ δ} {r : ρ} {st : LSState α σ} {o : Res (Vars α ρ δ)} {dirs : List (Ev α)}
    {s' : σ} {force' : Bool} (h : DirRun ops prm i v r st o dirs s' force') :
    ∀ v', o = .ok v' → ops.getF s' = ops.getF st.s ∧ E v'.pt = E r := by
  intro v' hv
  cases h with
  | refresh o s4 g1 g2 => exact absurd hv (Res.fail_ne_ok _ _)
  | ub => simp at hv
  | steepestFail => exact absurd hv (Res.fail_ne_ok _ _)
  | steepest pt s4 sl dir s5 g1 g2 g3 g4 =>
    cases hv
    have := hE.restarted pt s4; rw [g4] at this
    exact ⟨this.trans (hE.refresh _ _ _ _ g1).2, (hE.refresh _ _ _ _ g1).1⟩
  | conjugateFail => exact absurd hv (Res.fail_ne_ok _ _)
  | conjugate pt s4 fr sl dir s5 g1 g2 g3 g4 g5 g6 =>
    cases hv
    have := hE.conjugated v.fr pt v.dir s4; rw [g5] at this
    exact ⟨this.trans (hE.refresh _ _ _ _ g1).2, (hE.refresh _ _ _ _ g1).1⟩
  | rejectedFail => exact absurd hv (Res.fail_ne_ok _ _)
  | rejected pt s4 fr c dir s5 sl dir6 s6 g1 g2 g3 g4 g5 g6 g7 =>
    cases hv
    have a := hE.conjugated v.fr pt v.dir s4; rw [g5] at a
    have b := hE.restarted pt s5; rw [g7] at b
    exact ⟨(b.trans a).trans (hE.refresh _ _ _ _ g1).2, (hE.refresh _ _ _ _ g1).1⟩

end Nlcg
