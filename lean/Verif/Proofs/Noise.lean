import Verif.Proofs.DriverTotal
import Verif.Proofs.SolverRun
import Verif.Spec.Noise

/-!
Runs whose energies carry an error.
-/

namespace Nlcg
open Spec Matrix

section
variable {σ ρ δ : Type} {ops : Ops ℝ σ ρ δ} {E : ρ → ℝ} {ε : ℝ}

theorem JsonRun.noisy (hE : Noisy ops E ε) {rank i : ℕ}
    {slope : ℝ} {pt : ρ} {w : NState ℝ σ} {o : Res Unit} {s' : σ} {file' : List (JsonRec ℝ)}
    (h : JsonRun ops rank i slope pt w o s' file') : ops.getF s' = ops.getF w.s := by
  obtain ⟨h1, -⟩ := h
  split at h1
  · have a := hE.gather pt w.s
    rw [← h1] at a
    exact a
  · cases h1; rfl

theorem DirRun.noisy (hE : Noisy ops E ε) {prm : NlcgParams ℝ}
    {i : ℕ} {v : Vars ℝ ρ δ} {r : ρ} {st : LSState ℝ σ} {o : Res (Vars ℝ ρ δ)} {dirs : List (Ev ℝ)}
    {s' : σ} {force' : Bool} (h : DirRun ops prm i v r st o dirs s' force') :
    ∀ v', o = .ok v' → ops.getF s' = ops.getF st.s ∧ E v'.pt = E r ∧
      (st.forceRestart = true → force' = true) := by
  intro v' hv
  cases h with
  | refresh o s4 g1 g2 => exact absurd hv (Res.fail_ne_ok _ _)
  | ub => simp at hv
  | steepestFail => exact absurd hv (Res.fail_ne_ok _ _)
  | steepest pt s4 sl dir s5 g1 g2 g3 g4 =>
    cases hv
    have := hE.restarted pt s4; rw [g4] at this
    exact ⟨this.trans (hE.refresh _ _ _ _ g1).2, (hE.refresh _ _ _ _ g1).1, id⟩
  | conjugateFail => exact absurd hv (Res.fail_ne_ok _ _)
  | conjugate pt s4 fr sl dir s5 g1 g2 g3 g4 g5 g6 =>
    cases hv
    have := hE.conjugated v.fr pt v.dir s4; rw [g5] at this
    exact ⟨this.trans (hE.refresh _ _ _ _ g1).2, (hE.refresh _ _ _ _ g1).1, id⟩
  | rejectedFail => exact absurd hv (Res.fail_ne_ok _ _)
  | rejected pt s4 fr c dir s5 sl dir6 s6 g1 g2 g3 g4 g5 g6 g7 =>
    cases hv
    have a := hE.conjugated v.fr pt v.dir s4; rw [g5] at a
    have b := hE.restarted pt s5; rw [g7] at b
    exact ⟨(b.trans a).trans (hE.refresh _ _ _ _ g1).2, (hE.refresh _ _ _ _ g1).1, fun _ => rfl⟩

/-- a search lands on an evaluated point; unless it reset, the energy did not rise -/
theorem lineSearch_noisy (hE : Noisy ops E ε) {p : LSParams ℝ} {fuel : ℕ} {pt : ρ} {dir : δ} {slope : ℝ}
    {st st' : LSState ℝ σ} {r : ρ}
    (h : lineSearch { G := ops.geo pt dir, getF := ops.getF } p fuel slope st = some (.ok r, st')) :
    |ops.getF st'.s - E r| ≤ ε ∧
    ((st'.forceRestart = false ∧ ops.getF st'.s ≤ ops.getF st.s) ∨
     (st'.forceRestart = true ∧ st.forceRestart = false ∧ E r = E pt)) := by
  rcases lineSearch_inv _ _ _ _ _ _ _ h with ⟨_, h1, _⟩ | ⟨_, ⟨h1, _⟩ | ⟨stm, h1, h2⟩⟩
  · simp at h1
  · rcases (qline_spec _ _ _ _ _ _ _ h1).2 with ⟨r', hr, ⟨t, s0, rest, h2, -⟩, h3, h4⟩ | ⟨h3, -⟩ | ⟨h3, -⟩
    · cases hr
      simp only [real_lt, decide_eq_false_iff_not, not_lt] at h3
      exact ⟨hE.geo _ _ _ _ _ _ h2, Or.inl ⟨h4, h3⟩⟩
    · simp at h3
    · exact absurd rfl (h3 r)
  · have hq : stm.forceRestart = st.forceRestart := by
      rcases (qline_spec _ _ _ _ _ _ _ h1).2 with ⟨r', hr, -⟩ | ⟨-, h3, -⟩ | ⟨-, h3, -⟩
      · cases hr
      · exact h3
      · exact h3
    rcases btSearch_spec _ _ _ _ _ _ _ h2 with ⟨_, h3, _⟩ | ⟨_, k, stn, hk, hk2, hc⟩
    · simp at h3
    · rcases hc with ⟨r', hr, rfl, ⟨t, s0, rest, h4, -⟩, h5, h6, -⟩ | ⟨-, h4, ⟨-, h5, -⟩ | ⟨h5, h6⟩⟩ | ⟨-, -, h5, -⟩
      · cases hr
        simp only [real_lt, decide_eq_true_eq] at h5
        exact ⟨hE.geo _ _ _ _ _ _ h4, Or.inl ⟨h6, h5.le⟩⟩
      · simp at h5
      · have h7 := evalG_ok h6
        have h8 : (Arith.lit 0 : ℝ) = 0 := by simp
        refine ⟨hE.geo _ _ _ _ _ _ h7.1, Or.inr ⟨?_, hq ▸ h5, ?_⟩⟩
        · rw [evalG] at h6
          simp only [Option.some.injEq, Prod.mk.injEq] at h6
          rw [← h6.2]
        · have := h7.1
          simp only [h8] at this
          exact hE.zero _ _ _ _ _ this
      · exact absurd rfl (h5 r)

/-- One iteration: the energy does not rise unless the search reset, and then by at most `2 ε`. -/
theorem BodyRun.noisy (hE : Noisy ops E ε)
    {prm : NlcgParams ℝ} {fuel rank i : ℕ} {v v' : Vars ℝ ρ δ} {w w' : NState ℝ σ}
    (h : BodyRun ops prm fuel rank i v w (.ok v') w') (h0 : |ops.getF w.s - E v.pt| ≤ ε) :
    |ops.getF w'.s - E v'.pt| ≤ ε ∧
    (ops.getF w'.s ≤ ops.getF w.s ∨
      (Ev.found i true ∈ w'.trace ∧ w.force = false ∧ w'.force = true ∧
        ops.getF w'.s ≤ ops.getF w.s + 2 * ε)) := by
  generalize ho : (Res.ok v' : Res (Vars ℝ ρ δ)) = o' at h
  cases h with
  | json o s1 file' g1 g2 => exact absurd ho.symm (Res.fail_ne_ok _ _)
  | hostPrint s1 s2 file' o g1 g2 g3 => exact absurd ho.symm (Res.fail_ne_ok _ _)
  | search s1 s2 file' o st tr g1 => exact absurd ho.symm (Res.fail_ne_ok _ _)
  | searched s1 s2 file' r st _ dirs s' force' g1 g2 g3 g4 =>
    obtain ⟨d1, d2, d3⟩ := g4.noisy hE v' ho.symm
    have hp := hE.hostPrint s1
    rw [g2] at hp
    have hF : ops.getF s2 = ops.getF w.s := hp.trans (g1.noisy hE)
    obtain ⟨a1, a2⟩ := lineSearch_noisy hE g3
    simp only at a2
    refine ⟨by simp only; rw [d1, d2]; exact a1, ?_⟩
    simp only
    rw [d1, ← hF]
    rcases a2 with ⟨-, b2⟩ | ⟨b1, b2, b3⟩
    · exact Or.inl b2
    · refine Or.inr ⟨by simp [b1], b2, d3 b1, ?_⟩
      rw [hF]
      rw [b3] at a1
      rw [abs_le] at a1 h0
      linarith [a1.2, h0.1]

theorem BodyRun.noisy_reports (hE : Noisy ops E ε)
    {prm : NlcgParams ℝ} {fuel rank i : ℕ} {v : Vars ℝ ρ δ} {o : Res (Vars ℝ ρ δ)} {w w' : NState ℝ σ}
    (h : BodyRun ops prm fuel rank i v w o w') :
    ∃ new, reports w'.trace = reports w.trace ++ new ∧
      (new = [] ∨ ∃ S, new = [(i, ops.getF w.s, S, v.slope)]) := by
  cases h with
  | json o s1 file' g1 g2 => exact ⟨[], by simp, Or.inl rfl⟩
  | hostPrint s1 s2 file' o g1 g2 g3 =>
    refine ⟨[(i, ops.getF s1, ops.getS s1, v.slope)], ?_, Or.inr ⟨ops.getS s1, by rw [g1.noisy hE]⟩⟩
    simp [searchStart, reports_append, reports]
  | search s1 s2 file' o st tr g1 g2 g3 g4 g5 g6 =>
    have : reports tr = [] := by
      cases o with
      | ok => simp [Res.isOk] at g4
      | throw e => rw [g5 e rfl]; rfl
      | ub => rw [g6 (Or.inl rfl)]; rfl
      | abort => rw [g6 (Or.inr rfl)]; rfl
    refine ⟨[(i, ops.getF s1, ops.getS s1, v.slope)], ?_, Or.inr ⟨ops.getS s1, by rw [g1.noisy hE]⟩⟩
    simp [searchStart, reports_append, reports, this]
  | searched s1 s2 file' r st _ dirs s' force' g1 g2 g3 g4 =>
    refine ⟨[(i, ops.getF s1, ops.getS s1, v.slope)], ?_, Or.inr ⟨ops.getS s1, by rw [g1.noisy hE]⟩⟩
    simp [searchStart, reports_append, reports, g4.proj.2.1]

theorem BodyRun.trace_mem {prm : NlcgParams ℝ} {fuel rank i : ℕ} {v : Vars ℝ ρ δ}
    {o : Res (Vars ℝ ρ δ)} {w w' : NState ℝ σ} (h : BodyRun ops prm fuel rank i v w o w') {e : Ev ℝ}
    (he : e ∈ w.trace) : e ∈ w'.trace := by
  cases h <;> simp [searchStart, he]

theorem LoopRun.trace_mem {prm : NlcgParams ℝ} {fuel rank n i : ℕ} {v : Vars ℝ ρ δ}
    {o : Res (Info ℝ)} {w w' : NState ℝ σ} (h : LoopRun ops prm fuel rank n i v w o w') {e : Ev ℝ} :
    e ∈ w.trace → e ∈ w'.trace := by
  induction h with
  | limit => exact id
  | success => intro he; simp [he]
  | successJson => intro he; simp [he]
  | successPrint => intro he; simp [he]
  | step n i v w v' w1 o w' h1 h2 h3 ih => exact fun he => ih (h2.trace_mem (by simp [started, he]))
  | caught n i v w e w1 h1 h2 h3 => exact fun he => h2.trace_mem (by simp [started, he])
  | uncaught n i v w o w1 h1 h2 h3 h4 => exact fun he => h2.trace_mem (by simp [started, he])

/-- what the reports of a loop that begins at iteration `i` with energy `F` may be -/
def WithinFrom (t : List (Ev ℝ)) (ε F : ℝ) (force : Bool) (i : ℕ) (x : Report) : Prop :=
  i ≤ x.1 ∧ x.2.1 ≤ F + ε * ((x.1 - i : ℕ) + if force then 0 else 1) ∧ (NoReset t i x.1 → x.2.1 ≤ F)

theorem WithinFrom.here (t : List (Ev ℝ)) (hε : 0 ≤ ε) (F : ℝ) (force : Bool) (i : ℕ) (S sl : ℝ) :
    WithinFrom t ε F force i (i, F, S, sl) := by
  refine ⟨le_refl _, ?_, fun _ => le_refl _⟩
  simp only [Nat.sub_self, Nat.cast_zero, zero_add]
  split
  · simp
  · simpa using hε

/-- what is reported later in the loop, in terms of what is reported first -/
def Steady (t : List (Ev ℝ)) (ε : ℝ) (x y : Report) : Prop :=
  RisesWithin ε x y ∧ (NoReset t x.1 y.1 → y.2.1 ≤ x.2.1)

theorem LoopRun.noisy (hE : Noisy ops E ε) (hε : 0 ≤ ε)
    {prm : NlcgParams ℝ} {fuel rank : ℕ} {n i : ℕ} {v : Vars ℝ ρ δ} {w : NState ℝ σ}
    {o : Res (Info ℝ)} {w' : NState ℝ σ} (h : LoopRun ops prm fuel rank n i v w o w') :
    |ops.getF w.s - E v.pt| ≤ ε →
    ∃ new, reports w'.trace = reports w.trace ++ new ∧
      (∀ x ∈ new, WithinFrom w'.trace ε (ops.getF w.s) w.force i x) ∧
      new.Pairwise (Steady w'.trace ε) := by
  have last : ∀ (i : ℕ) (v : Vars ℝ ρ δ) (w w1 : NState ℝ σ) (o : Res (Vars ℝ ρ δ)),
      BodyRun ops prm fuel rank i v (started i v.slope w) o w1 →
      ∃ new, reports w1.trace = reports w.trace ++ new ∧
        (∀ x ∈ new, WithinFrom w1.trace ε (ops.getF w.s) w.force i x) ∧
        new.Pairwise (Steady w1.trace ε) := by
    intro i v w w1 o hb
    obtain ⟨new, e1, e2⟩ := hb.noisy_reports hE
    refine ⟨new, by rw [e1]; simp [started, reports_append, reports], ?_⟩
    rcases e2 with rfl | ⟨S, rfl⟩
    · simp
    · refine ⟨?_, by simp⟩
      intro x hx
      obtain rfl := List.mem_singleton.1 hx
      exact .here _ hε _ _ _ _ _
  have one : ∀ (i : ℕ) (w : NState ℝ σ) (t : List (Ev ℝ)) (S sl : ℝ),
      (∀ x ∈ [(i, ops.getF w.s, S, sl)], WithinFrom t ε (ops.getF w.s) w.force i x) ∧
      [(i, ops.getF w.s, S, sl)].Pairwise (Steady t ε) := by
    intro i w t S sl
    refine ⟨?_, by simp⟩
    intro x hx
    obtain rfl := List.mem_singleton.1 hx
    exact .here _ hε _ _ _ _ _
  induction h with
  | limit => intro _; exact ⟨[], by simp, by simp, by simp⟩
  | success n i v w s1 s2 file' h1 h2 h3 =>
    exact fun _ => ⟨[(i, ops.getF w.s, ops.getS w.s, v.slope)], by simp [reports_append, reports], one i w _ _ _⟩
  | successJson n i v w o s1 file' h1 h2 h3 =>
    exact fun _ => ⟨[(i, ops.getF w.s, ops.getS w.s, v.slope)], by simp [reports_append, reports], one i w _ _ _⟩
  | successPrint n i v w s1 file' o s2 h1 h2 h3 h4 =>
    exact fun _ => ⟨[(i, ops.getF w.s, ops.getS w.s, v.slope)], by simp [reports_append, reports], one i w _ _ _⟩
  | step n i v w v' w1 o w' h1 h2 h3 ih =>
    intro h0
    obtain ⟨e1, e2⟩ := h2.noisy hE (w := started i v.slope w) h0
    obtain ⟨new0, a1, a2⟩ := h2.noisy_reports hE
    obtain ⟨new, b1, b2, b3⟩ := ih e1
    have e2' : ops.getF w1.s ≤ ops.getF w.s ∨
      (Ev.found i true ∈ w1.trace ∧ w.force = false ∧ w1.force = true ∧
        ops.getF w1.s ≤ ops.getF w.s + 2 * ε) := e2
    -- what the rest of the loop reports, seen from here
    have later : ∀ x ∈ new, WithinFrom w'.trace ε (ops.getF w.s) w.force i x := by
      intro x hx
      obtain ⟨c1, c2, c3⟩ := b2 x hx
      have hk : ((x.1 - i : ℕ) : ℝ) = (x.1 - (i + 1) : ℕ) + 1 := by
        have : x.1 - i = x.1 - (i + 1) + 1 := by omega
        rw [this]; push_cast; ring
      refine ⟨by omega, ?_, ?_⟩
      · rw [hk]
        rcases e2' with d | ⟨-, d1, d2, d3⟩
        · have : (if w1.force then (0 : ℝ) else 1) ≤ 1 + if w.force then 0 else 1 := by
            split <;> split <;> norm_num
          nlinarith [mul_le_mul_of_nonneg_left this hε]
        · rw [d2] at c2
          rw [d1]
          simp only [if_true] at c2
          simp only [Bool.false_eq_true, if_false]
          nlinarith
      · intro hn
        have c4 := c3 fun k hk1 hk2 => hn k (by omega) hk2
        rcases e2' with d | ⟨d0, -⟩
        · linarith
        · exact absurd (h3.trace_mem d0) (hn i (le_refl _) (by omega))
    refine ⟨new0 ++ new, by rw [b1, a1]; simp [started, reports_append, reports], ?_, ?_⟩
    · intro x hx
      rcases List.mem_append.1 hx with hx | hx
      · rcases a2 with rfl | ⟨S, rfl⟩
        · simp at hx
        · obtain rfl := List.mem_singleton.1 hx
          exact .here _ hε _ _ _ _ _
      · exact later x hx
    · rcases a2 with rfl | ⟨S, rfl⟩
      · simpa using b3
      · simp only [List.singleton_append, List.pairwise_cons]
        refine ⟨?_, b3⟩
        intro y hy
        obtain ⟨c1, c2, c3⟩ := later y hy
        refine ⟨⟨c1, c2.trans ?_⟩, c3⟩
        simp only [started]
        have : (if w.force then (0 : ℝ) else 1) ≤ 1 := by split <;> norm_num
        nlinarith [mul_le_mul_of_nonneg_left this hε]
  | caught n i v w e w1 h1 h2 h3 => exact fun _ => last i v w w1 _ h2
  | uncaught n i v w o w1 h1 h2 h3 h4 => exact fun _ => last i v w w1 _ h2

end

/-- A run ends although its energies carry an error. -/
theorem noisy_ends {σ ρ δ : Type} {ops : Ops ℝ σ ρ δ} {E : ρ → ℝ} {ε : ℝ} (hE : Noisy ops E ε)
    (hε : 0 ≤ ε) (L : ℝ) (hL : ∀ r, L ≤ E r) (prm : NlcgParams ℝ) (htol : 0 < prm.tol)
    (w : NState ℝ σ) : ∃ N, ∀ fuel ≥ N, ∀ rank, nlcg ops prm fuel rank w ≠ none := by
  -- the highest energy that can be stored
  let M := prm.maxiter.toNat
  let U := ops.getF (ops.setup (ops.construct w.s).2).2
  obtain ⟨n, hn⟩ := pow_unbounded_of_one_lt ((U + 2 * ε * M - (L - ε)) / prm.tol / (2 / 10))
    (show (1 : ℝ) < 5 by norm_num)
  have hbt : ∃ m, ∀ fuel ≥ m, ∀ (env : LSEnv ℝ σ ρ) (F0 : ℝ) (st : LSState ℝ σ),
      btSearch env { tTrial := Arith.lit (2 / 10), tau := prm.tau } fuel F0 st ≠ none := by
    by_cases ht : prm.tau < 1
    · obtain ⟨m, hm⟩ := exists_small_step (Arith.lit (2 / 10)) prm.tau ht
      exact ⟨m, fun fuel hf env F0 st => btSearch_ne_none env _ F0 m fuel hf hm st⟩
    · refine ⟨0, fun fuel _ env F0 st => ?_⟩
      rw [btSearch, if_pos (by simpa using ht)]
      simp
  obtain ⟨m, hm⟩ := hbt
  refine ⟨max (n + 1) m, fun fuel hf rank => ?_⟩
  refine nlcg_ne_none_left ops prm fuel rank (fun k v w => |ops.getF w.s - E v.pt| ≤ ε ∧ k ≤ M ∧
    ops.getF w.s ≤ U + 2 * ε * (M - k : ℕ)) w ?_ ?_ ?_
  · intro s1 pt s2 slope dir s3 h1 h2 h3
    have a := hE.restarted pt s2
    rw [h3] at a
    have hU : U = ops.getF s2 := by simp only [U]; rw [h1]; simp only; rw [h2]
    simp only at a
    simp only [a, hU]
    exact ⟨hE.setup _ _ _ h2, le_refl _, by simp [M]⟩
  · rintro k i v w v' w1 ⟨p1, p2, p3⟩ - hb
    obtain ⟨e1, e2⟩ := hb.noisy hE (w := started i v.slope w) p1
    refine ⟨e1, by omega, ?_⟩
    have hk : ((M - k : ℕ) : ℝ) = (M - (k + 1) : ℕ) + 1 := by
      have : M - k = M - (k + 1) + 1 := by omega
      rw [this]; push_cast; ring
    have e3 : ops.getF w1.s ≤ ops.getF w.s + 2 * ε := by
      rcases e2 with e | ⟨-, -, -, e⟩
      · simp only [started] at e; linarith
      · exact e
    rw [hk]
    nlinarith
  · rintro k i v w s1 s2 file' ⟨p1, p2, p3⟩ ht hj hp
    by_cases hs : 0 < v.slope
    · rw [lineSearch, if_pos (by simpa using hs)]
      simp
    · push Not at hs
      have hsl : v.slope ≤ -prm.tol := by
        simp only [real_abs, real_lt, decide_eq_false_iff_not, not_lt] at ht
        rw [abs_of_nonpos hs] at ht
        linarith
      refine lineSearch_ne_none _ _ _ _ _ ?_ (fun st' => hm fuel (by omega) _ _ _)
      refine qline_ne_none _ _ _ n fuel (by omega) _ ?_
      intro t' s0 r s hG
      have hF : ops.getF s2 ≤ U + 2 * ε * M := by
        have a := hE.hostPrint s1
        rw [hp] at a
        have b := hj.noisy hE
        simp only [started] at b a
        rw [a, b]
        have : ((M - (k + 1) : ℕ) : ℝ) ≤ M := by exact_mod_cast Nat.sub_le _ _
        nlinarith
      have h5 : nthStep (Arith.lit (2 / 10) : ℝ) (Arith.lit 5) n = 2 / 10 * 5 ^ n := by
        rw [nthStep_real]; simp
      rw [h5]
      rw [div_lt_iff₀ (by norm_num), div_lt_iff₀ htol] at hn
      simp only [qCurv, real_lt, real_div, real_sub, real_mul, real_lit, decide_eq_false_iff_not, not_lt]
      push_cast
      apply div_nonneg
      · have h7 := hL r
        have h8 := (abs_le.1 (hE.geo _ _ _ _ _ _ hG)).1
        have h6 : (0 : ℝ) < 5 ^ n := by positivity
        nlinarith
      · positivity

/-- one iteration of the loop that goes on -/
theorem cgLoop_step {α σ ρ δ : Type} [Arith α] {ops : Ops α σ ρ δ} {prm : NlcgParams α}
    {fuel rank n i : ℕ} {v v' : Vars α ρ δ} {w w1 : NState α σ}
    (ht : Arith.lt (Arith.abs v.slope) prm.tol = false)
    (hb : cgBody ops prm fuel rank i v (started i v.slope w) = some (.ok v', w1)) :
    cgLoop ops prm fuel rank (n + 1) i v w = cgLoop ops prm fuel rank n (i + 1) v' w1 := by
  rw [started] at hb
  rw [cgLoop, FM.bind_apply, emit, ht]
  simp only [FM.modify_apply, Bool.false_eq_true, if_false]
  rw [FM.bind_apply, FM.attempt, hb]

/-! ## The solver -/

section
variable {K : ℕ} {n b : Fin K → ℕ} {η : Type} {host : Host η n b} {c : Cfg n b}
  {E : Orbitals n b → Bands b → ℝ} {ε : ℝ}

theorem evaluate_noisy (hh : HostOk host) (hE : EnergyWithin host c E ε) {X : Orbitals n b}
    {fn en : Bands b} {mu : ℝ} {s s' : SState η n b} (ha : Admissible c X fn)
    (h : evaluate host c X fn en mu s = (.ok (), s')) :
    host.C s'.h = X ∧
    |s'.F - (E X fn + entropyTerm c.t c.T c.mo mu (List.ofFn fun k => (c.wk k, List.ofFn (en k))))|
      ≤ ε := by
  obtain ⟨s1, s2, s3, s4, e, h1, h2, h3, h4, h5, h6⟩ := evaluate_ok h
  obtain ⟨f1, f2⟩ := hh.setFn fn s1 s2 h2
  obtain ⟨g1, g2, H, g3⟩ := hh.compute s2 s3 h3
  obtain ⟨m1, m2⟩ := hh.setMu mu s3 s4 h4
  obtain ⟨e1, e2⟩ := hh.energy s4 e _ h5
  have hC : host.C s4 = X := by rw [m1.C, g1, f2, hh.setC X s.h s1 h1]
  refine ⟨by rw [e1.C, hC], ?_⟩
  have hfn : host.fn s4 = fn := by rw [m1.fn, g2, f1]
  have := hE.energy _ _ _ (by rw [hC, hfn]; exact ha) h5
  rw [hC, hfn] at this
  rw [h6]
  convert this using 2
  ring

/-- the host that has no error -/
def exactHost (host : Host η n b) (E : Orbitals n b → Bands b → ℝ) : Host η n b :=
  { host with energy := fun h => (some (E (host.C h) (host.fn h)), h) }

theorem exactHost_ok (hh : HostOk host) : HostOk (exactHost host E) where
  setC := hh.setC
  setFn := hh.setFn
  compute := fun h h' e => by
    obtain ⟨a, b, H, c⟩ := hh.compute h h' e
    exact ⟨a, b, H, ⟨c.1, c.2, c.3⟩⟩
  setMu := fun mu h h' e => by
    obtain ⟨a, b⟩ := hh.setMu mu h h' e
    exact ⟨⟨a.1, a.2, a.3, a.4⟩, b⟩
  energy := fun h e h' he => by
    cases he
    exact ⟨⟨rfl, rfl, rfl, rfl⟩, rfl⟩
  print := fun h h' e => by
    obtain ⟨a, b⟩ := hh.print h h' e
    exact ⟨⟨a.1, a.2, a.3, a.4⟩, b⟩

theorem solver_noisy (hs : Setting host c) (hE : EnergyWithin host c E ε) :
    Noisy (guardedOps host c) (pointEnergy c E) ε where
  setup := fun s r s' h => by
    have h' : guardedSetup host c s = (.ok r, s') := h
    rw [guardedSetup] at h'
    split at h'
    · next h0 =>
      obtain ⟨h1, ek, mu, f, s1, hc, ho, h2, h3, h4, h5⟩ := solverSetup_ok h'
      obtain ⟨g1, -⟩ := hs.host.compute _ _ hc
      obtain ⟨e1, e2⟩ := evaluate_noisy hs.host hE
        ⟨by rw [g1]; exact h0.2, ek, mu, hs.occ _ _ _ ho⟩ h2
      show |s'.F - _| ≤ _
      rw [pointEnergy, h3, h4, h5, e1, ← hs.occ _ _ _ ho]
      exact e2
    · simp at h'
  geo := fun pt dir t s r s' h => by
    have h' : guardedGeo host c pt dir t s = (.ok r, s') := h
    rw [guardedGeo] at h'
    split at h'
    · next hd =>
      obtain ⟨sl, hD⟩ := hd
      obtain ⟨g, mu, f, h1, h2, h3, rfl⟩ := solverGeo_ok h'
      obtain ⟨e1, e2⟩ := evaluate_noisy hs.host hE ⟨fun k =>
        C19_step_orthonormal hs.lapack (hs.overlap k) (hD.ortho k) (hD.tangent k)
          (by rw [hD.eta]; exact makeDiag_hermitian _) (hD.herm k) t (h1 k), _, _, hs.occ _ _ _ h2⟩ h3
      show |s'.F - _| ≤ _
      rw [pointEnergy, ← hs.occ _ _ _ h2]
      exact e2
    · simp at h'
  zero := fun pt dir s r s' h => by
    have h' : guardedGeo host c pt dir 0 s = (.ok r, s') := h
    rw [guardedGeo] at h'
    split at h'
    · next hd =>
      obtain ⟨sl, hD⟩ := hd
      obtain ⟨g, mu, f, h1, h2, h3, rfl⟩ := solverGeo_ok h'
      refine zero_step_energy (host := exactHost host E)
        ⟨exactHost_ok hs.host, hs.lapack, hs.overlap, hs.prec, hs.weights, hs.occ⟩
        ⟨fun h e h' _ he => ?_, hE.density, hE.occ⟩ hD h1 h2
      cases he
      rfl
    · simp at h'
  refresh := fun r s pt s' h => by
    have h' : solverRefresh host r s = (.ok pt, s') := h
    rw [solverRefresh, SM.get_bind, SM.pure_apply, Prod.mk.injEq, Res.ok.injEq] at h'
    obtain ⟨rfl, rfl⟩ := h'
    exact ⟨rfl, rfl⟩
  restarted := fun pt s => rfl
  conjugated := fun fr pt dir s => rfl
  gather := fun pt s => rfl
  hostPrint := fun s => hostCall_F _ _ _

end
end Nlcg
