import Verif.Proofs.Schedule

/-!
# C131: no schedule of the ranks makes a run hang

`Spec/Schedule.lean` says what the ranks do when each of them computes at its own pace.
-/

namespace Nlcg
open Matrix Spec

variable {K R : ℕ} {own : Fin K → Fin R} {n b : Fin K → ℕ} {η : Type}

/-- the ranks of a call -/
noncomputable def rankProcess (own : Fin K → Fin R) (host : Host η n b) (c : Cfg n b)
    (occ : (Fin K → ℝ) → Bands b → Res (ℝ × Bands b)) (prm : NlcgParams ℝ) (fuel : ℕ) (w : NState ℝ (SState η n b))
    (r : Fin R) : Process own n b r :=
  fun ω => rankRun ω (localCfg own c occ r) prm fuel (rankStart own host w r)

/-- What a rank does next is determined by the replies it has got: it calls one particular operation or ends in one
particular way, not both. -/
theorem C131_determined (host : Host η n b) (c : Cfg n b) (occ : (Fin K → ℝ) → Bands b → Res (ℝ × Bands b))
    (prm : NlcgParams ℝ) (fuel : ℕ) (w : NState ℝ (SState η n b)) (r : Fin R) (got : List (Reply own n b r)) :
    (∀ q q', Asks (rankProcess own host c occ prm fuel w r) got q →
      Asks (rankProcess own host c occ prm fuel w r) got q' → q = q') ∧
    (∀ o v q, Ends (rankProcess own host c occ prm fuel w r) got o v →
      ¬ Asks (rankProcess own host c occ prm fuel w r) got q) ∧
    (∀ o v o' v', Ends (rankProcess own host c occ prm fuel w r) got o v →
      Ends (rankProcess own host c occ prm fuel w r) got o' v' → o = o' ∧ v = v') :=
  ⟨fun _ _ h h' => asks_unique rfl h h', fun _ _ q h => ends_not_asks rfl h q, fun _ _ _ _ h h' => ends_unique rfl h h'⟩

/-- **C131.** Let the run that sees all k-points end with `o`. There are transcripts of `N` calls per rank such that
every schedule of the ranks can be continued until it has made `N (R + 1)` steps, and no further. Then every rank has
ended with `o`; transcripts, numbers and the state of the host do not depend on the schedule. The eigensolver must not
report a failure (see C68). -/
theorem C131_schedule (hR : 0 < R) (host : Host η n b) (c : Cfg n b)
    (occ : (Fin K → ℝ) → Bands b → Res (ℝ × Bands b)) (hocc : ∀ e, c.occ e = occ c.wk e)
    (htot : ∀ {m : ℕ} (A : Mat m m), (c.la.heevd A).2 = 0) (prm : NlcgParams ℝ) (fuel : ℕ)
    (w w' : NState ℝ (SState η n b)) (o : Res (Info ℝ)) (h : solve host c prm fuel 0 w = some (o, w')) :
    ∃ (N : ℕ) (L : (r : Fin R) → Transcript own n b r), (∀ r, (L r).length = N) ∧
      ∀ k S, Reaches host (rankProcess own host c occ prm fuel w) (System.fresh w.s.h) k S →
        (k < N * (R + 1) ∧ ∃ S', Step host (rankProcess own host c occ prm fuel w) S S') ∨
        (k = N * (R + 1) ∧ (¬ ∃ S', Step host (rankProcess own host c occ prm fuel w) S S') ∧
          S.h = w'.s.h ∧ S.got = L ∧ ∀ r, S.posted r = none ∧ ∃ v,
            Ends (rankProcess own host c occ prm fuel w r) (S.replies r) o v ∧
            v.s.log = L r ∧ v.s.view = view own host w'.s.h r ∧ v.s.F = w'.s.F ∧ v.s.S = w'.s.S ∧
            v.info = w'.info ∧ v.trace = w'.trace ∧ (r.val = 0 → v.file = w'.file)) := by
  obtain ⟨L, hl, hr⟩ := C41_lockstep (own := own) host c occ hocc htot prm fuel w w' o h
  obtain ⟨N, H, hN, H0, HN, hans⟩ := hl.numbered
  refine ⟨N, L, hN, ?_⟩
  have asks : ∀ r d, d < N → ∀ q a, (L r)[d]? = some (q, a) →
      Asks (rankProcess own host c occ prm fuel w r) (((L r).take d).map Prod.snd) q := by
    intro r d hd q a hq
    obtain ⟨v, e, hv, -⟩ := hr r _ (streamOf_provides (L r))
    refine ⟨_, streamOf_extends (L r) d, o, v, e, ?_⟩
    have hlen : (((L r).take d).map Prod.snd).length = d := by simp [hN r, hd.le]
    rw [hlen, hv, hq]
    rfl
  have ends : ∀ r, ∃ v, Ends (rankProcess own host c occ prm fuel w r) ((L r).map Prod.snd) o v ∧
      v.s.log = L r ∧ v.s.view = view own host w'.s.h r ∧ v.s.F = w'.s.F ∧ v.s.S = w'.s.S ∧
      v.info = w'.info ∧ v.trace = w'.trace ∧ (r.val = 0 → v.file = w'.file) := by
    intro r
    obtain ⟨v, e, hv, hv'⟩ := hr r _ (streamOf_provides (L r))
    refine ⟨v, ⟨_, ?_, e, by simp [hv]⟩, hv, hv'⟩
    have := streamOf_extends (L r) (L r).length
    rwa [List.take_length] at this
  have none_stuck : stuckRanks (rankProcess own host c occ prm fuel w) L = ∅ := by
    refine Finset.eq_empty_of_forall_notMem fun r hr => ?_
    obtain ⟨q, hq⟩ := mem_stuckRanks.1 hr
    obtain ⟨v, e, -⟩ := ends r
    exact (C131_determined host c occ prm fuel w r _).2.1 o v q e hq
  intro k S hS
  rw [← H0] at hS
  have key := schedule_core (fun r got => (C131_determined host c occ prm fuel w r got).1)
    (fun r got => (C131_determined host c occ prm fuel w r got).2.1) hN hans asks
    (fun r => .inl ⟨o, by obtain ⟨v, e, -⟩ := ends r; exact ⟨v, e⟩⟩) ⟨0, hR⟩
    ⟨o, by obtain ⟨v, e, -⟩ := ends ⟨0, hR⟩; exact ⟨v, e⟩⟩ k S hS
  rw [none_stuck, Finset.card_empty, Nat.add_zero] at key
  rcases key with h1 | ⟨h1, h2, h3, h4, h5⟩
  · exact .inl h1
  · refine .inr ⟨h1, h2, h3.trans HN, h4, fun r => ?_⟩
    obtain ⟨v, e, hv⟩ := ends r
    rw [← h4] at e
    refine ⟨?_, v, e, hv⟩
    rcases h5 r with ⟨h6, -⟩ | ⟨q, -, h6⟩
    · exact h6
    · exact absurd h6 ((C131_determined host c occ prm fuel w r _).2.1 o v q e)

/-- Once a rank has ended, the calls of the others are not answered any more: all transcripts stay as they are. So if
a rank ends early (see C68), the others wait for ever. -/
theorem C131_no_answer_after_an_end (host : Host η n b) (c : Cfg n b)
    (occ : (Fin K → ℝ) → Bands b → Res (ℝ × Bands b)) (prm : NlcgParams ℝ) (fuel : ℕ) (w : NState ℝ (SState η n b))
    (S T : System own n b η) (k : ℕ) (r : Fin R) (o : Res (Info ℝ)) (v : NState ℝ (RState own n b r))
    (hn : S.posted r = none) (he : Ends (rankProcess own host c occ prm fuel w r) (S.replies r) o v)
    (h : Reaches host (rankProcess own host c occ prm fuel w) S k T) :
    T.got = S.got ∧ T.h = S.h ∧ T.posted r = none := by
  induction h with
  | start => exact ⟨rfl, rfl, hn⟩
  | @step k T U _ st ih =>
    obtain ⟨i1, i2, i3⟩ := ih
    cases st with
    | call s q hp hq =>
      refine ⟨i1, i2, ?_⟩
      by_cases hs : r = s
      · subst hs
        rw [System.replies, i1] at hq
        exact absurd hq ((C131_determined host c occ prm fuel w r _).2.1 o v q he)
      · simp only [Function.update_of_ne hs]
        exact i3
    | answer q a h' hp ans => exact absurd (hp r) (by rw [i3]; simp)

/-! ## The assumptions can be met -/

/-- the first call of a rank is that of the host's `compute` -/
theorem first_call {r : Fin R} {ω : ℕ → Reply own n b r} {c : LCfg own n b r} (hT : c.T ≠ 0) {prm : NlcgParams ℝ}
    {fuel : ℕ} {w v : NState ℝ (RState own n b r)} {o : Res (Info ℝ)} (hw : w.s.log = [])
    (h : rankRun ω c prm fuel w = some (o, v)) : [(Req.compute, ω 0)] <+: v.s.log := by
  have g := rank_grows ω c
  have hc : ∀ s, (rankOps ω c).construct s = (.ok (), s) := fun s => by simp [rankOps, hT]
  have st : Starts ω .compute (rankOps ω c).setup := by
    refine Starts.bind (Starts.bind (fun x => List.prefix_refl _) fun y => ?_) fun _ => ?_
    · rcases y with ⟨(_ | _), v⟩ | _ | _ | _ | _
      · refine Grows.bind (Grows.modify ?_) fun _ => Grows.lift _
        exact fun _ => rfl
      · exact Grows.modify fun _ => rfl
      all_goals exact Grows.lift _
    · have k : ∀ j < 0, ω j = ω j := fun _ _ => rfl
      exact (Causal.get.bind fun _ => (Causal.occR k c _).bind fun _ => Causal.get.bind fun _ =>
        (Causal.evaluateR k c _ _ _ _).bind fun _ => Causal.get.bind fun _ => Causal.pure _).grow
  simp only [rankRun, nlcg, FM.bind_apply, FM.modify_apply, liftOp, hc] at h
  have s1 := st w.s
  rw [hw] at s1
  generalize (rankOps ω c).setup w.s = x at h s1
  obtain ⟨o1, s'⟩ := x
  cases o1 with
  | ok pt =>
    have g1 := (g.restarted pt) s'
    simp only at h g1 s1
    generalize (rankOps ω c).restarted pt s' = y at h g1
    obtain ⟨o2, s2⟩ := y
    cases o2 with
    | ok d => exact s1.trans (g1.trans (g.loop prm fuel r _ _ _ _ _ h).s)
    | throw e => cases h; exact s1.trans g1
    | ub => cases h; exact s1.trans g1
    | abort => cases h; exact s1.trans g1
  | throw e => cases h; exact s1
  | ub => cases h; exact s1
  | abort => cases h; exact s1

/-- the search of the demo -/
noncomputable def duoOcc : (Fin 2 → ℝ) → Bands duoB → Res (ℝ × Bands duoB) := fun _ ek => .ok (0, occs .gauss 300 2 ek 0)

/-- two ranks with a k-point each: the first call is not the last, and the two ranks may make it in any order -/
example (prm : NlcgParams ℝ) (htol : 0 < prm.tol) : ∃ fuel o w' N, 0 < N ∧
    solve duoHost duoCfg prm fuel 0 duoStart = some (o, w') ∧
    (∀ k S, Reaches duoHost (rankProcess id duoHost duoCfg duoOcc prm fuel duoStart) (System.fresh duoStart.s.h) k S →
      k ≤ N * 3 ∧ (k < N * 3 → ∃ S', Step duoHost (rankProcess id duoHost duoCfg duoOcc prm fuel duoStart) S S')) ∧
    ∀ r : Fin 2, ∃ q S', Reaches duoHost (rankProcess id duoHost duoCfg duoOcc prm fuel duoStart)
      (System.fresh duoStart.s.h) 1 S' ∧ S'.posted r = some q := by
  obtain ⟨fuel, o, w', h⟩ := duo_ends prm htol
  obtain ⟨N, L, hN, hS⟩ := C131_schedule (own := (id : Fin 2 → Fin 2)) two_pos duoHost duoCfg duoOcc (fun _ => rfl)
    (fun _ => rfl) prm fuel duoStart w' o h
  have first : ∀ r : Fin 2, Asks (rankProcess id duoHost duoCfg duoOcc prm fuel duoStart r) [] .compute := by
    intro r
    obtain ⟨L', hl', hr'⟩ := C41_lockstep (own := (id : Fin 2 → Fin 2)) duoHost duoCfg duoOcc (fun _ => rfl)
      (fun _ => rfl) prm fuel duoStart w' o h
    obtain ⟨v, e, hv, -⟩ := hr' r _ (streamOf_provides (L' r))
    refine ⟨_, fun i hi => absurd hi (by simp), o, v, e, ?_⟩
    obtain ⟨t, ht⟩ := first_call (by norm_num [localCfg, duoCfg]) rfl e
    rw [← ht]
    rfl
  have hN0 : 0 < N := by
    rcases hS 0 _ .start with h1 | ⟨-, h2, -⟩
    · by_contra hc
      have : N = 0 := by omega
      subst this
      omega
    · exact absurd ⟨_, .call 0 .compute rfl (first 0)⟩ h2
  refine ⟨fuel, o, w', N, hN0, h, fun k S hk => ?_, fun r => ⟨.compute, _, .step .start (.call r .compute rfl (first r)), ?_⟩⟩
  · rcases hS k S hk with ⟨h1, h2⟩ | ⟨h1, -⟩
    · exact ⟨by omega, fun _ => h2⟩
    · exact ⟨by omega, fun h => absurd h (by omega)⟩
  · simp [System.fresh]

end Nlcg
