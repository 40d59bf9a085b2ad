import Verif.Spec.Timed
import Verif.Proofs.Timed
import Mathlib.Tactic.Linarith

/-!
# C132: the times in the log

`nlcgT` is the driver with its stopwatch. A run begins with a new stopwatch.
-/

namespace Nlcg
open Arith Spec
variable {α σ ρ δ : Type} [Arith α]

/-- a new stopwatch, nothing reported -/
def newWatch : Watch := { t := 0, laps := [] }

/-- **C132.** The stopwatch only observes: without it the run is the same. -/
theorem C132_observes (ops : Ops α σ ρ δ) (clock : σ → Int) (prm : NlcgParams α) (fuel rank : ℕ) (w : NState α σ) :
    (nlcgT ops clock prm fuel rank (w, newWatch)).map (fun x => (x.1, x.2.1)) = nlcg ops prm fuel rank w :=
  nlcgT_shadows ops clock prm fuel rank w newWatch

omit [Arith α] in
/-- the end of a run, if a failed search leaves no mark -/
theorem LapEnd.idle {clock : σ → Int} {I S : Int → Watch → Prop} {b : Bool} {p : NState α σ × Watch}
    (h : LapEnd clock I S b p) (hS : ∀ c u, S c u → I c u) : I (clock p.1.s) p.2 := by
  rcases h with h | ⟨h, -⟩
  · exact h
  · exact hS _ _ h

omit [Arith α] in
theorem Leads.idle {β : Type} {clock : σ → Int} {I S : Int → Watch → Prop} {P : NState α σ × Watch → Prop}
    {m : FM (NState α σ × Watch) β} (h : Leads clock I S P m fun _ => LapEnd clock I S true)
    (hS : ∀ c u, S c u → I c u) {p p' : NState α σ × Watch} {o : Res β} (hp : P p) (he : m p = some (o, p')) :
    I (clock p'.1.s) p'.2 := by
  have := h p hp o p' he
  cases o with
  | ok b => exact this.idle hS
  | throw e => exact this.idle hS
  | ub => exact this.idle hS
  | abort => exact this.idle hS

/-- **C132_partial.** With a clock that never goes backwards, however the run ends: no reported time is negative, and
together they are no longer than the run, so no moment is reported twice. -/
theorem C132_times_partial (ops : Ops α σ ρ δ) (clock : σ → Int) (hs : Steady ops clock) (prm : NlcgParams α)
    (fuel rank : ℕ) (w w' : NState α σ) (u' : Watch) (o : Res (Info α))
    (h : nlcgT ops clock prm fuel rank (w, newWatch) = some (o, (w', u'))) :
    (∀ x ∈ u'.laps, 0 ≤ x.2) ∧ (u'.laps.map Prod.snd).sum ≤ clock w'.s - clock w.s := by
  let I : Int → Watch → Prop := fun c u => (∀ x ∈ u.laps, 0 ≤ x.2) ∧ (u.laps.map Prod.snd).sum ≤ c - clock w.s
  let S : Int → Watch → Prop := fun c u =>
    (∀ x ∈ u.laps, 0 ≤ x.2) ∧ (u.laps.map Prod.snd).sum ≤ u.t - clock w.s ∧ u.t ≤ c
  have up : ∀ {c c' : Int} {u : Watch}, c ≤ c' → I c u → I c' u := fun hc h => ⟨h.1, by have := h.2; omega⟩
  have upS : ∀ {c c' : Int} {u : Watch}, c ≤ c' → S c u → S c' u := fun hc h => ⟨h.1, h.2.1, by have := h.2.2; omega⟩
  have SI : ∀ c u, S c u → I c u := fun c u h => ⟨h.1, by have := h.2.1; have := h.2.2; omega⟩
  have stop : ∀ (k : LapKind) c u, S c u → I c { u with laps := u.laps ++ [(k, c - u.t)] } := by
    rintro k c u ⟨h1, h2, h3⟩
    refine ⟨fun x hx => ?_, ?_⟩
    · rcases List.mem_append.1 hx with hx | hx
      · exact h1 x hx
      · rw [List.mem_singleton] at hx
        subst hx
        exact sub_nonneg.2 h3
    · simp only [List.map_append, List.map_cons, List.map_nil, List.sum_append, List.sum_cons, List.sum_nil]
      omega
  have rule : LapRule ops clock I S S S :=
    { gather := fun pt s u => up (hs.gather pt s)
      print := fun s u => up (hs.hostPrint s)
      refresh := fun r s u => up (hs.refresh r s)
      startB := fun c u h => ⟨h.1, h.2, le_refl _⟩
      startD := fun c u h => ⟨h.1, h.2, le_refl _⟩
      printB := fun s u => upS (hs.hostPrint s)
      idleB := SI
      search := fun _ _ h => h
      geo := fun pt d t s u => upS (hs.geo pt d t s)
      stopS := fun c u h => stop _ c u h
      restarted := fun pt s u => upS (hs.restarted pt s)
      conjugated := fun fr pt d s u => upS (hs.conjugated fr pt d s)
      restartedFails := fun pt s u h _ => SI _ _ (upS (hs.restarted pt s) h)
      conjugatedFails := fun fr pt d s u h _ => SI _ _ (upS (hs.conjugated fr pt d s) h)
      stopD := fun k c u _ h => stop k c u h }
  have run := rule.run (P0 := fun c u => u.laps = [] ∧ clock w.s ≤ c)
    (fun s u h => ⟨h.1, le_trans h.2 (hs.construct s)⟩) (fun c u h => ⟨by simp, by have := h.2; simp; omega⟩)
    (fun c u h => ⟨by simp [h.1], by have := h.2; simp [h.1]; omega⟩) (fun s u => up (hs.setup s))
    (fun pt s u => up (hs.restarted pt s)) prm fuel rank
  exact run.idle SI (p := (w, newWatch)) ⟨rfl, le_refl _⟩ h

/-- **C132.** What is reported for directions is time spent on directions: if they take no time, all these times are 0,
whatever the clock does otherwise. -/
theorem C132_directions_only (ops : Ops α σ ρ δ) (clock : σ → Int) (hd : DirectionsTakeNoTime ops clock)
    (prm : NlcgParams α) (fuel rank : ℕ) (w w' : NState α σ) (u' : Watch) (o : Res (Info α))
    (h : nlcgT ops clock prm fuel rank (w, newWatch) = some (o, (w', u'))) :
    ∀ x ∈ directionTimes u'.laps, x = 0 := by
  let I : Int → Watch → Prop := fun _ u => ∀ x ∈ directionTimes u.laps, x = 0
  let D : Int → Watch → Prop := fun c u => I c u ∧ u.t = c
  have rule : LapRule ops clock I I I D :=
    { gather := fun _ _ _ h => h
      print := fun _ _ h => h
      refresh := fun _ _ _ h => h
      startB := fun _ _ h => h
      startD := fun _ _ h => ⟨h, rfl⟩
      printB := fun _ _ h => h
      idleB := fun _ _ h => h
      search := fun _ _ h => h
      geo := fun _ _ _ _ _ h => h
      stopS := fun c u h x hx => h x (by simpa [directionTimes] using hx)
      restarted := fun pt s u h => ⟨h.1, h.2.trans (hd.1 pt s).symm⟩
      conjugated := fun fr pt d s u h => ⟨h.1, h.2.trans (hd.2 fr pt d s).symm⟩
      restartedFails := fun _ _ _ h _ => h.1
      conjugatedFails := fun _ _ _ _ _ h _ => h.1
      stopD := by
        rintro k c u hk ⟨h1, h2⟩ x hx
        simp only [directionTimes, List.filter_append, List.map_append, List.mem_append] at hx
        rcases hx with hx | hx
        · exact h1 x hx
        · simp only [ne_eq, hk, not_false_eq_true, decide_true, List.filter_cons_of_pos, List.filter_nil,
            List.map_cons, List.map_nil, List.mem_singleton] at hx
          omega }
  have run := rule.run (P0 := I) (fun _ _ h => h) (fun _ _ _ => by simp [I, directionTimes]) (fun _ _ h => h)
    (fun _ _ h => h) (fun _ _ _ h => h) prm fuel rank
  exact run.idle (fun _ _ h => h) (p := (w, newWatch)) (by simp [I, Shows, directionTimes, newWatch]) h

/-- **C132_partial.** What is reported for line searches is time spent on trial steps or in the host's `print_info`: if
those take no time, all these times are 0. -/
theorem C132_searches_only_partial (ops : Ops α σ ρ δ) (clock : σ → Int) (hg : StepsTakeNoTime ops clock)
    (hp : ∀ s, clock (ops.hostPrint s).2 = clock s)
    (prm : NlcgParams α) (fuel rank : ℕ) (w w' : NState α σ) (u' : Watch) (o : Res (Info α))
    (h : nlcgT ops clock prm fuel rank (w, newWatch) = some (o, (w', u'))) :
    ∀ x ∈ searchTimes u'.laps, x = 0 := by
  let I : Int → Watch → Prop := fun _ u => ∀ x ∈ searchTimes u.laps, x = 0
  let S : Int → Watch → Prop := fun c u => I c u ∧ u.t = c
  have rule : LapRule ops clock I S S I :=
    { gather := fun _ _ _ h => h
      print := fun _ _ h => h
      refresh := fun _ _ _ h => h
      startB := fun _ _ h => ⟨h, rfl⟩
      startD := fun _ _ h => h
      printB := fun s u h => ⟨h.1, h.2.trans (hp s).symm⟩
      idleB := fun _ _ h => h.1
      search := fun _ _ h => h
      geo := fun pt d t s u h => ⟨h.1, h.2.trans (hg pt d t s).symm⟩
      stopS := by
        rintro c u ⟨h1, h2⟩ x hx
        simp only [searchTimes, List.filter_append, List.map_append, List.mem_append] at hx
        rcases hx with hx | hx
        · exact h1 x hx
        · simp only [decide_true, List.filter_cons_of_pos, List.filter_nil,
            List.map_cons, List.map_nil, List.mem_singleton] at hx
          omega
      restarted := fun _ _ _ h => h
      conjugated := fun _ _ _ _ _ h => h
      restartedFails := fun _ _ _ h _ => h
      conjugatedFails := fun _ _ _ _ _ h _ => h
      stopD := fun k c u hk h x hx => h x (by simpa [searchTimes, hk] using hx) }
  have run := rule.run (P0 := I) (fun _ _ h => h) (fun _ _ _ => by simp [I, searchTimes]) (fun _ _ h => h)
    (fun _ _ h => h) (fun _ _ _ h => h) prm fuel rank
  exact run.idle (fun _ _ h => h.1) (p := (w, newWatch)) (by simp [I, Shows, searchTimes, newWatch]) h

/-- the loop, entered after a start that went well -/
theorem nlcgT_loop (ops : Ops α σ ρ δ) (clock : σ → Int) (prm : NlcgParams α) (fuel rank : ℕ) (w : NState α σ)
    {s1 s2 s3 : σ} {pt : ρ} {slope : α} {dir : δ} (h1 : ops.construct w.s = (.ok (), s1))
    (h2 : ops.setup s1 = (.ok pt, s2)) (h3 : ops.restarted pt s2 = (.ok (slope, dir), s3)) :
    ∃ v : Vars α ρ δ, nlcgT ops clock prm fuel rank (w, newWatch) =
      cgLoopT ops clock prm fuel rank prm.maxiter.toNat 0 v
        ({ s := s3, file := [], info := ⟨none, false⟩, force := false, trace := [] }, newWatch) := by
  refine ⟨{ pt := pt, dir := dir, slope := slope, fr := slope }, ?_⟩
  simp only [nlcgT, FM.bind_apply, unwatched, FM.modify_apply, liftOp, h1, h2, h3]
  rfl

/-- **C132.** Nothing is left out, line searches: let only trial steps take time. If the run returns and none of its line
searches has failed, the times reported for line searches add up to all the time the loop took. -/
theorem C132_searches_complete (ops : Ops α σ ρ δ) (clock : σ → Int) (hd : DirectionsTakeNoTime ops clock)
    (hr : RestTakesNoTime ops clock) (prm : NlcgParams α) (fuel rank : ℕ) (w w' : NState α σ) (u' : Watch)
    (info : Info α) {s1 s2 s3 : σ} {pt : ρ} {slope : α} {dir : δ} (h1 : ops.construct w.s = (.ok (), s1))
    (h2 : ops.setup s1 = (.ok pt, s2)) (h3 : ops.restarted pt s2 = (.ok (slope, dir), s3))
    (h : nlcgT ops clock prm fuel rank (w, newWatch) = some (.ok info, (w', u')))
    (hf : ∀ i e, Ev.failed i e ∉ w'.trace) :
    (searchTimes u'.laps).sum = clock w'.s - clock s3 := by
  let I : Int → Watch → Prop := fun c u => (searchTimes u.laps).sum = c - clock s3
  have rule : LapRule ops clock I (fun c u => I c u ∧ u.t = c) (fun _ u => I u.t u) I :=
    { gather := fun pt s u h => by rw [hr.2.1]; exact h
      print := fun s u h => by rw [hr.2.2]; exact h
      refresh := fun r s u h => by rw [hr.1]; exact h
      startB := fun _ _ h => ⟨h, rfl⟩
      startD := fun _ _ h => h
      printB := fun s u h => by rw [hr.2.2]; exact h
      idleB := fun _ _ h => h.1
      search := fun c u h => by rw [h.2]; exact h.1
      geo := fun _ _ _ _ _ h => h
      stopS := by
        intro c u h
        have h : (searchTimes u.laps).sum = u.t - clock s3 := h
        have e : searchTimes (u.laps ++ [(LapKind.search, c - u.t)]) = searchTimes u.laps ++ [c - u.t] := by
          simp [searchTimes]
        show (searchTimes (u.laps ++ [(LapKind.search, c - u.t)])).sum = c - clock s3
        rw [e, sum_append_one]
        omega
      restarted := fun pt s u h => by rw [hd.1]; exact h
      conjugated := fun fr pt d s u h => by rw [hd.2]; exact h
      restartedFails := fun pt s u h _ => by rw [hd.1]; exact h
      conjugatedFails := fun fr pt d s u h _ => by rw [hd.2]; exact h
      stopD := by
        intro k c u hk h
        have e : searchTimes (u.laps ++ [(k, c - u.t)]) = searchTimes u.laps := by simp [searchTimes, hk]
        show (searchTimes (u.laps ++ [(k, c - u.t)])).sum = c - clock s3
        rw [e]
        exact h }
  obtain ⟨v, hv⟩ := nlcgT_loop ops clock prm fuel rank w h1 h2 h3
  rw [hv] at h
  rcases rule.loop prm fuel rank _ _ v _ (by simp [Shows, I, searchTimes, newWatch]) _ _ h with h | ⟨-, h⟩
  · exact h
  · obtain ⟨i, e, hm⟩ := h rfl
    exact absurd hm (hf i e)

/-- **C132.** Nothing is left out, directions: let only directions take time and let none of them fail. However the run
ends, the times reported for them add up to all the time the loop took. -/
theorem C132_directions_complete (ops : Ops α σ ρ δ) (clock : σ → Int) (hg : StepsTakeNoTime ops clock)
    (hr : RestTakesNoTime ops clock) (hok : ∀ pt s, ∃ q, (ops.restarted pt s).1 = .ok q)
    (hok' : ∀ fr pt d s, ∃ q, (ops.conjugated fr pt d s).1 = .ok q)
    (prm : NlcgParams α) (fuel rank : ℕ) (w w' : NState α σ) (u' : Watch)
    (o : Res (Info α)) {s1 s2 s3 : σ} {pt : ρ} {slope : α} {dir : δ} (h1 : ops.construct w.s = (.ok (), s1))
    (h2 : ops.setup s1 = (.ok pt, s2)) (h3 : ops.restarted pt s2 = (.ok (slope, dir), s3))
    (h : nlcgT ops clock prm fuel rank (w, newWatch) = some (o, (w', u'))) :
    (directionTimes u'.laps).sum = clock w'.s - clock s3 := by
  let I : Int → Watch → Prop := fun c u => (directionTimes u.laps).sum = c - clock s3
  have rule : LapRule ops clock I I I (fun _ u => I u.t u) :=
    { gather := fun pt s u h => by rw [hr.2.1]; exact h
      print := fun s u h => by rw [hr.2.2]; exact h
      refresh := fun r s u h => by rw [hr.1]; exact h
      startB := fun _ _ h => h
      startD := fun _ _ h => h
      printB := fun s u h => by rw [hr.2.2]; exact h
      idleB := fun _ _ h => h
      search := fun c u h => h
      geo := fun pt d t s u h => by rw [hg]; exact h
      stopS := by
        intro c u h
        have e : directionTimes (u.laps ++ [(LapKind.search, c - u.t)]) = directionTimes u.laps := by
          simp [directionTimes]
        show (directionTimes (u.laps ++ [(LapKind.search, c - u.t)])).sum = c - clock s3
        rw [e]
        exact h
      restarted := fun _ _ _ h => h
      conjugated := fun _ _ _ _ _ h => h
      restartedFails := fun pt s u _ hn => absurd (hok pt s).choose_spec (hn _)
      conjugatedFails := fun fr pt d s u _ hn => absurd (hok' fr pt d s).choose_spec (hn _)
      stopD := by
        intro k c u hk h
        have h : (directionTimes u.laps).sum = u.t - clock s3 := h
        have e : directionTimes (u.laps ++ [(k, c - u.t)]) = directionTimes u.laps ++ [c - u.t] := by
          simp [directionTimes, hk]
        show (directionTimes (u.laps ++ [(k, c - u.t)])).sum = c - clock s3
        rw [e, sum_append_one]
        omega }
  obtain ⟨v, hv⟩ := nlcgT_loop ops clock prm fuel rank w h1 h2 h3
  rw [hv] at h
  exact (rule.loop prm fuel rank _ _ v).idle (fun _ _ h => h) (by simp [Shows, I, directionTimes, newWatch]) h

/-! ## A run -/

/-- A host with the energy `(x - 1/2)²`, started at `x = 0`. The state: time shown by the clock, and the energy. A trial
step takes `g`, a direction `d`, the host's `print_info` takes `p`. -/
def clockOps (g d p : Int) : Ops ℚ (Int × ℚ) ℚ ℚ where
  construct s := (.ok (), s)
  setup s := (.ok 0, (s.1, 1 / 4))
  restarted x s := (.ok (-(2 * x - 1) ^ 2, -(2 * x - 1)), (s.1 + d, s.2))
  conjugated _ x _ s := (.ok (-(2 * x - 1) ^ 2, -(2 * x - 1) ^ 2, -(2 * x - 1)), (s.1 + d, s.2))
  geo x z t s := (.ok (x + t * z), (s.1 + g, (x + t * z - 1 / 2) ^ 2))
  refresh x s := (.ok x, s)
  gather _ s := (.ok (), s)
  hostPrint s := (.ok (), (s.1 + p, s.2))
  getF s := s.2
  getS _ := 0

def clockPrm : NlcgParams ℚ := { maxiter := 10, tol := 1 / 100, tau := 1 / 2, restart := 2 }

def clockStart : NState ℚ (Int × ℚ) := { s := (1000, 0), file := [], info := ⟨none, false⟩, force := false, trace := [] }

/-- the times reported by a run -/
def clockLaps (g d p : Int) : Option (List (LapKind × Int)) :=
  (nlcgT (clockOps g d p) Prod.fst clockPrm 20 0 (clockStart, newWatch)).map fun x => x.2.2.laps

theorem clock_laps : clockLaps 5 3 0 = some [(.search, 10), (.steepest, 3)] := by decide +kernel

theorem clock_steady (g d p : ℕ) : Steady (clockOps g d p) Prod.fst :=
  ⟨fun _ => le_refl _, fun _ => le_refl _, fun _ s => by show s.1 ≤ s.1 + (d : Int); omega,
    fun _ _ _ s => by show s.1 ≤ s.1 + (d : Int); omega, fun _ _ _ s => by show s.1 ≤ s.1 + (g : Int); omega,
    fun _ _ => le_refl _, fun _ _ => le_refl _, fun s => by show s.1 ≤ s.1 + (p : Int); omega⟩

/-- the assumptions are met: a run of two trial steps and two directions, the first of which is not timed -/
example : Steady (clockOps 5 3 2) Prod.fst ∧ DirectionsTakeNoTime (clockOps 5 0 0) Prod.fst ∧
    RestTakesNoTime (clockOps 5 0 0) Prod.fst ∧ StepsTakeNoTime (clockOps 0 3 0) Prod.fst ∧
    clockLaps 5 0 0 = some [(.search, 10), (.steepest, 0)] ∧ clockLaps 0 3 0 = some [(.search, 0), (.steepest, 3)] :=
  ⟨clock_steady 5 3 2, ⟨fun _ s => add_zero s.1, fun _ _ _ s => add_zero s.1⟩,
    ⟨fun _ _ => rfl, fun _ _ => rfl, fun s => add_zero s.1⟩, fun _ _ _ s => add_zero s.1, by decide +kernel,
    by decide +kernel⟩

/-- **C132 is false of a clock that is set back**: the log reports a negative time. `high_resolution_clock`
(`src/utils/timer.hpp:50`, `56`) may be the system clock, which can be set back at any time. -/
theorem C132_not_nonnegative : ¬ ∀ (ops : Ops ℚ (Int × ℚ) ℚ ℚ) (prm : NlcgParams ℚ) (w : NState ℚ (Int × ℚ))
    (fuel rank : ℕ) (q : Res (Info ℚ) × NState ℚ (Int × ℚ) × Watch),
    nlcgT ops Prod.fst prm fuel rank (w, newWatch) = some q → ∀ x ∈ q.2.2.laps, 0 ≤ x.2 := by
  intro h
  have hl : clockLaps (-5) 3 0 = some [(.search, -10), (.steepest, 3)] := by decide +kernel
  unfold clockLaps at hl
  cases hq : nlcgT (clockOps (-5) 3 0) Prod.fst clockPrm 20 0 (clockStart, newWatch) with
  | none => rw [hq] at hl; simp at hl
  | some q =>
    rw [hq] at hl
    have e : q.2.2.laps = [(.search, -10), (.steepest, 3)] := by simpa using hl
    have := h _ _ _ _ _ q hq (.search, -10) (by rw [e]; simp)
    omega

/-- **C132 is false of the line search**: what is reported for it contains the time the host spends in `print_info`, as
the stopwatch is started before that call (`src/nlcglib.cpp:369`, `378`). Here the trial steps take no time at all. -/
theorem C132_not_search_only : ¬ ∀ (ops : Ops ℚ (Int × ℚ) ℚ ℚ) (prm : NlcgParams ℚ) (w : NState ℚ (Int × ℚ))
    (fuel rank : ℕ) (q : Res (Info ℚ) × NState ℚ (Int × ℚ) × Watch), Steady ops Prod.fst → StepsTakeNoTime ops Prod.fst →
    nlcgT ops Prod.fst prm fuel rank (w, newWatch) = some q → ∀ x ∈ searchTimes q.2.2.laps, x = 0 := by
  intro h
  have hl : clockLaps 0 3 7 = some [(.search, 7), (.steepest, 3)] := by decide +kernel
  unfold clockLaps at hl
  cases hq : nlcgT (clockOps 0 3 7) Prod.fst clockPrm 20 0 (clockStart, newWatch) with
  | none => rw [hq] at hl; simp at hl
  | some q =>
    rw [hq] at hl
    have e : q.2.2.laps = [(.search, 7), (.steepest, 3)] := by simpa using hl
    have := h _ _ _ _ _ q (clock_steady 0 3 7) (fun _ _ _ s => add_zero s.1) hq 7 (by rw [e]; simp [searchTimes])
    omega

end Nlcg
