import Verif.Proofs.StepRace
import Verif.Props.Spmd
import Verif.Props.Driver

/-!
# C91: `nlcg.json` holds the records of this run only, for every schedule of the ranks

All ranks remove the file, rank 0 writes it. `fileRun ⟨file0, fun _ => [], acts⟩ sched` is what is on
disk after the ranks have had their turns in the order `sched`, starting from a file with the records
`file0` of earlier runs.
-/

namespace Nlcg
open Matrix Spec

section
variable {m K : ℕ} {own : Fin K → Fin (m + 1)} {n b : Fin K → ℕ}

/-- the actions of a rank in the form the race is about -/
theorem RankActs.prog {r : Fin (m + 1)} {ω : ℕ → Reply own n b r} {c : LCfg own n b r}
    {prm : NlcgParams ℝ} {fuel : ℕ} {w w' : NState ℝ (RState own n b r)} {o : Res (Info ℝ)}
    (hr : rankRun ω c prm fuel w = some (o, w')) {acts : List (FileAct (JsonRec ℝ))}
    (ha : RankActs ω c w w' acts) : Prog (r = 0) acts := by
  cases ha with
  | refused => exact .refused
  | failed s1 o s2 h1 h2 h3 =>
    rcases syncActs_cases (β := JsonRec ℝ) (s2.log.drop s1.log.length) with e | ⟨rest, e, hm, hn⟩
    · rw [e]; exact .failed
    · rw [e]; exact .ran rest hm fun _ => hn
  | ran s1 pt s2 post h1 h2 h3 h4 =>
    obtain ⟨x, hx, hs⟩ := setupR_gather (ω := ω) (c := c) h2
    rcases syncActs_cases (β := JsonRec ℝ) (s2.log.drop s1.log.length) with e | ⟨rest, e, hm, hn⟩
    · exact absurd e (syncActs_ne_nil hx hs)
    · rw [e]
      refine .ran (rest ++ post) (by simp [hm, h3]) fun h0 => ?_
      rw [appended_append, hn, h4, List.nil_append]
      obtain ⟨k, -, -, h, -⟩ := C35_step_log _ prm fuel r.val w w' o hr (by rw [h1])
      exact h fun e => h0 (Fin.ext e)

theorem RankActs.appended_eq {r : Fin (m + 1)} {ω : ℕ → Reply own n b r} {c : LCfg own n b r}
    {prm : NlcgParams ℝ} {fuel : ℕ} {w w' : NState ℝ (RState own n b r)} {o : Res (Info ℝ)}
    (hr : rankRun ω c prm fuel w = some (o, w')) {acts : List (FileAct (JsonRec ℝ))}
    (ha : RankActs ω c w w' acts) (hT : c.T ≠ 0) : acts ≠ [] ∧ appended acts = w'.file := by
  have clean : ∀ l : List (Req own n b r × Reply own n b r),
      appended (syncActs l : List (FileAct (JsonRec ℝ))) = [] := fun l => by
    rcases syncActs_cases (β := JsonRec ℝ) l with e | ⟨rest, e, hm, hn⟩
    · rw [e]; rfl
    · rw [e]; exact hn
  cases ha with
  | refused h => simp [rankOps, SM.lift, hT] at h
  | failed s1 o s2 h1 h2 h3 =>
    refine ⟨by simp, ?_⟩
    show appended (syncActs _) = _
    rw [clean]
    cases nlcg_run _ prm fuel r.val w _ _ hr with
    | construct o s1' h1' h2' => rw [h1] at h1'; cases h1'; cases h2'
    | setup => rfl
    | restarted => rfl
    | loop s1' pt s2' sl d s3 o' w' h1' h2' =>
      rw [h1] at h1'; cases h1'
      rw [h2] at h2'; cases h2'
      exact absurd rfl (h3 _)
  | ran s1 pt s2 post h1 h2 h3 h4 =>
    refine ⟨by simp, ?_⟩
    show appended (syncActs _ ++ post) = _
    rw [appended_append, clean, h4, List.nil_append]

/-- **C91.** Whatever the order in which the ranks proceed, wherever they stop, and whatever earlier
runs have left in the file: as soon as rank 0 has written a record, the file consists of exactly the
records it has written in this run. No slow rank removes one of them. -/
theorem C91_nothing_lost (ω : (r : Fin (m + 1)) → ℕ → Reply own n b r)
    (c : (r : Fin (m + 1)) → LCfg own n b r) (prm : NlcgParams ℝ) (fuel : ℕ)
    (w w' : (r : Fin (m + 1)) → NState ℝ (RState own n b r)) (o : Fin (m + 1) → Res (Info ℝ))
    (hr : ∀ r, rankRun (ω r) (c r) prm fuel (w r) = some (o r, w' r))
    (acts : Fin (m + 1) → List (FileAct (JsonRec ℝ)))
    (ha : ∀ r, RankActs (ω r) (c r) (w r) (w' r) (acts r))
    (file0 : List (JsonRec ℝ)) (sched : List (Fin (m + 1)))
    (hw : appended ((fileRun ⟨file0, fun _ => [], acts⟩ sched).done 0) ≠ []) :
    (fileRun ⟨file0, fun _ => [], acts⟩ sched).file
      = appended ((fileRun ⟨file0, fun _ => [], acts⟩ sched).done 0) :=
  have hp : ∀ r : Fin (m + 1), Prog (r = 0) (acts r) := fun r => (ha r).prog (hr r)
  ((FInv.start acts file0).run hp sched).kept hp hw

/-- When all ranks are through, the file holds the records of rank 0, all of them and no others, unless
the run was refused (`T = 0`). -/
theorem C91_complete_partial (ω : (r : Fin (m + 1)) → ℕ → Reply own n b r)
    (c : (r : Fin (m + 1)) → LCfg own n b r) (hT : ∀ r, (c r).T ≠ 0) (prm : NlcgParams ℝ) (fuel : ℕ)
    (w w' : (r : Fin (m + 1)) → NState ℝ (RState own n b r)) (o : Fin (m + 1) → Res (Info ℝ))
    (hr : ∀ r, rankRun (ω r) (c r) prm fuel (w r) = some (o r, w' r))
    (acts : Fin (m + 1) → List (FileAct (JsonRec ℝ)))
    (ha : ∀ r, RankActs (ω r) (c r) (w r) (w' r) (acts r))
    (file0 : List (JsonRec ℝ)) (sched : List (Fin (m + 1)))
    (hend : ∀ r, (fileRun ⟨file0, fun _ => [], acts⟩ sched).todo r = []) :
    (fileRun ⟨file0, fun _ => [], acts⟩ sched).file = (w' 0).file := by
  have hp : ∀ r : Fin (m + 1), Prog (r = 0) (acts r) := fun r => (ha r).prog (hr r)
  have hi := (FInv.start acts file0).run hp sched
  have hd : ∀ r, (fileRun ⟨file0, fun _ => [], acts⟩ sched).done r = acts r := fun r => by
    have := hi.split r
    rwa [hend r, List.append_nil] at this
  rw [hi.file fun r => by rw [hd]; exact ((ha r).appended_eq (hr r) (hT r)).1, hd]
  exact ((ha 0).appended_eq (hr 0) (hT 0)).2

end

/-! ## Earlier runs -/

section
variable {α σ ρ δ : Type} [Arith α]

/-- What a run returns, reports and writes does not depend on what an earlier run has left in the file,
the result, the restart flag and the trace; only on the state `s` of the host and the solver. (The
restart flag is a local variable of the run.) -/
theorem C91_earlier_runs (ops : Ops α σ ρ δ) (prm : NlcgParams α) (fuel rank : Nat)
    (w1 w2 : NState α σ) (hs : w1.s = w2.s) (hcons : (ops.construct w1.s).1 = .ok ()) :
    (nlcg ops prm fuel rank w1).map (fun x => (x.1, { x.2 with force := false }))
      = (nlcg ops prm fuel rank w2).map (fun x => (x.1, { x.2 with force := false })) := by
  obtain ⟨s, f1, i1, b1, t1⟩ := w1
  obtain ⟨s2, f2, i2, b2, t2⟩ := w2
  cases hs
  rcases h1 : ops.construct s with ⟨o1, s1⟩
  simp only [h1] at hcons
  subst hcons
  simp only [nlcg, FM.bind_apply, FM.modify_apply, liftOp, h1]
  rcases h2 : ops.setup s1 with ⟨(pt | e | _ | _), s2⟩
  · simp only
    rcases h3 : ops.restarted pt s2 with ⟨(q | e | _ | _), s3⟩ <;> rfl
  all_goals rfl

/-- A run that is refused by a constructor leaves the records of the previous run in the file: `remove`
comes after the constructors. -/
theorem C91_not_refused (ops : Ops α σ ρ δ) (prm : NlcgParams α) (fuel rank : Nat) (w : NState α σ)
    (e : Exc) (s1 : σ) (h : ops.construct w.s = (.throw e, s1)) :
    ∃ w', nlcg ops prm fuel rank w = some (.throw e, w') ∧ w'.file = w.file := by
  refine ⟨{ w with s := s1, info := { vals := none, converged := false }, trace := [] }, ?_, rfl⟩
  simp only [nlcg, FM.bind_apply, FM.modify_apply, liftOp, h]

end

/-! ## Concrete cases -/

/-- every run of a rank that ends has actions -/
theorem RankActs.exists {m K : ℕ} {own : Fin K → Fin (m + 1)} {n b : Fin K → ℕ} {r : Fin (m + 1)}
    {ω : ℕ → Reply own n b r} {c : LCfg own n b r} {w w' : NState ℝ (RState own n b r)} :
    ∃ acts, RankActs ω c w w' acts := by
  by_cases h : ∃ s1, (rankOps ω c).construct w.s = (.ok (), s1)
  · obtain ⟨s1, h1⟩ := h
    rcases h2 : (rankOps ω c).setup s1 with ⟨o, s2⟩
    by_cases ho : ∃ pt, o = .ok pt
    · obtain ⟨pt, rfl⟩ := ho
      refine ⟨_, .ran s1 pt s2 (w'.file.map .append) h1 h2 (by simp) ?_⟩
      simp [appended, List.filterMap_map]
    · exact ⟨_, .failed s1 o s2 h1 h2 fun pt e => ho ⟨pt, e⟩⟩
  · refine ⟨[], .refused fun e => h ⟨_, Prod.ext e rfl⟩⟩

/-- two ranks with one k-point each, the run of `duoHost`: when both are through, the file holds the
records of the run, whatever was in it before and whatever the schedule -/
example (prm : NlcgParams ℝ) (fuel : ℕ) (o : Res (Info ℝ)) (w' : NState ℝ (SState (LState duoN duoB) duoN duoB))
    (h : solve duoHost duoCfg prm fuel 0 duoStart = some (o, w')) :
    ∃ acts : Fin 2 → List (FileAct (JsonRec ℝ)), ∀ file0 sched,
      (∀ r, (fileRun ⟨file0, fun _ => [], acts⟩ sched).todo r = []) →
      (fileRun ⟨file0, fun _ => [], acts⟩ sched).file = w'.file := by
  obtain ⟨L, -, hr⟩ := C41_lockstep (own := (id : Fin 2 → Fin 2)) duoHost duoCfg
    (fun _ ek => .ok (0, occs .gauss 300 2 ek 0)) (fun _ => rfl) (fun _ => rfl) prm fuel duoStart w' o h
  have hω : ∀ r, ∃ ω, Provides ω (L r) := fun r =>
    ⟨fun i => if h : i < (L r).length then ((L r)[i]).2 else .real 0, fun i h => dif_pos h⟩
  choose ω hω using hω
  choose v hv using fun r => hr r (ω r) (hω r)
  choose acts ha using fun r => RankActs.exists (ω := ω r)
    (c := localCfg (id : Fin 2 → Fin 2) duoCfg (fun _ ek => .ok (0, occs .gauss 300 2 ek 0)) r)
    (w := rankStart (id : Fin 2 → Fin 2) duoHost duoStart r) (w' := v r)
  refine ⟨acts, fun file0 sched hend => ?_⟩
  rw [C91_complete_partial ω _ (fun r => by norm_num [localCfg, duoCfg]) prm fuel _ v (fun _ => o)
    (fun r => (hv r).1) acts ha file0 sched hend]
  exact (hv 0).2.2.2.2.2.2.2 rfl

/-- two ranks: `remove`, a gather, two records of rank 0 -/
def raceActs : Fin 2 → List (FileAct ℕ)
  | 0 => [.remove, .enter, .leave, .append 0, .append 1]
  | 1 => [.remove, .enter, .leave]

/-- rank 0 cannot write before rank 1 has removed the file ... -/
example : (fileRun ⟨[7, 8], fun _ => [], raceActs⟩ [0, 0, 0, 0, 0]).file = [] ∧
    (fileRun ⟨[7, 8], fun _ => [], raceActs⟩ [0, 0, 0, 0, 0, 1, 1, 0, 0, 0]).file = [0, 1] ∧
    (fileRun ⟨[7, 8], fun _ => [], raceActs⟩ [1, 1, 0, 0, 0, 0, 1, 0]).file = [0, 1] := by
  decide

/-- ... without the gather it can, and the record is lost -/
example : (fileRun ⟨[7, 8], fun _ => [], fun r : Fin 2 => if r = 0 then [.remove, .append 0] else [.remove]⟩
    [0, 0, 1]).file = [] := by
  decide

/-- a refused run, `T = 0`, after a run with a record: the record stays -/
example (prm : NlcgParams ℝ) (fuel : ℕ) (rec : JsonRec ℝ) : ∃ w',
    solve duoHost { duoCfg with T := 0 } prm fuel 0 { duoStart with file := [rec] }
      = some (.throw .runtimeError, w') ∧ w'.file = [rec] :=
  C91_not_refused _ prm fuel 0 { duoStart with file := [rec] } _ duoStart.s (by simp [solverOps, SM.lift])

end Nlcg
