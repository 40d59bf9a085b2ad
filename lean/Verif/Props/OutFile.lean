import Verif.Proofs.OutFile
import Verif.Props.Driver

/-!
# C110: `nlcg.out` after a crash and after the end of a run
-/

namespace Nlcg
open Arith
variable {α σ ρ δ : Type} [Arith α]

/-- The run with messages is the run of `Verif/Model/Driver.lean`: outcome, state of the host, record, trace and
`nlcg.json` are the same whatever is logged. -/
theorem C110_same_run (ops : Ops α σ ρ δ) (oe : OutEnv α σ ρ δ) (prm : NlcgParams α) (fuel rank : Nat)
    (w : NState α σ) (o : List (OutOp α)) :
    (nlcgOut ops oe prm fuel rank (w, o)).map (fun x => (x.1, x.2.1)) = nlcg ops prm fuel rank w :=
  (nlcgOut_follows ops oe prm fuel rank).same w o

/-- **C110** for crashes: a run, however it ends, dies at any point after iteration `j > 0` has begun. Then
all that was logged before that iteration began is on disk. -/
theorem C110_crash_partial {ops : Ops α σ ρ δ} {oe : OutEnv α σ ρ δ} {prm : NlcgParams α} {fuel rank : Nat}
    {w w' : NState α σ} {o : List (OutOp α)} {r : Res (Info α)}
    (h : nlcgOut ops oe prm fuel rank (w, []) = some (r, (w', o)))
    {before after : List (OutOp α)} {j : Nat} (hj : 0 < j)
    (hc : before ++ .iteration j :: after <+: o)
    {d : List (OutLine α)} (hd : Spec.OnDisk (before ++ .iteration j :: after) d) :
    Spec.text before <+: d := by
  obtain ⟨c, a, rfl, hin, hl, -⟩ := nlcgOut_adds ops oe prm fuel rank h
  have hno : ∀ k, OutOp.iteration k ∉ c := by
    intro k hk
    rcases hin _ hk with h | ⟨l, h, -⟩ <;> cases h
  obtain ⟨rest, hc⟩ := hc
  have hbf : ∃ e, before = e ++ [.flush] := by
    rcases hl with hl | ⟨rfl, -⟩
    · have he : c ++ a = before ++ .iteration j :: (after ++ rest) := by rw [← hc]; simp
      rcases List.append_eq_append_iff.mp he with ⟨e, rfl, h2⟩ | ⟨e, h1, h2⟩
      · rcases hl.marker h2 with ⟨rfl, -⟩ | ⟨-, f, rfl⟩
        · omega
        · exact ⟨c ++ f, by simp⟩
      · cases e with
        | nil =>
          rcases hl.marker (p := []) (by simpa using h2.symm) with ⟨rfl, -⟩ | ⟨-, f, hf⟩
          · omega
          · simp at hf
        | cons y e =>
          simp only [List.cons_append, List.cons.injEq] at h2
          obtain ⟨rfl, -⟩ := h2
          exact absurd (by rw [h1]; simp) (hno j)
    · have : OutOp.iteration j ∈ c := by
        have h2 : c = before ++ .iteration j :: (after ++ rest) := by simpa using hc.symm
        rw [h2]
        simp
      exact absurd this (hno j)
  obtain ⟨e, rfl⟩ := hbf
  have := hd.2 e (.iteration j :: after) (by simp)
  simpa [Spec.text] using this

/-- **C110**: the reports in the messages are the reports made, in their order; so with `C110_crash_partial`
the energies of all finished iterations are on disk. -/
theorem C110_reports {ops : Ops α σ ρ δ} {oe : OutEnv α σ ρ δ} {prm : NlcgParams α} {fuel rank : Nat}
    {w w' : NState α σ} {o : List (OutOp α)} {r : Res (Info α)}
    (h : nlcgOut ops oe prm fuel rank (w, []) = some (r, (w', o))) :
    Spec.reportsIn (Spec.text o) = Spec.reportsMade w'.trace := by
  obtain ⟨_, _, _, _, _, h⟩ := nlcgOut_adds ops oe prm fuel rank h
  exact h.symm

/-- **C110** for runs that converge: when the call has returned, all messages are on disk and the last one is
the message of success, the only one that tells an end. -/
theorem C110_converged_partial {ops : Ops α σ ρ δ} {oe : OutEnv α σ ρ δ} {prm : NlcgParams α} {fuel rank : Nat}
    {w w' : NState α σ} {o : List (OutOp α)} {info : Info α}
    (h : nlcgOut ops oe prm fuel rank (w, []) = some (.ok info, (w', o))) (hi : info.converged = true)
    {d : List (OutLine α)} (hd : Spec.OnDisk o d) :
    d = Spec.text o ∧ ∃ c F S, d = c ++ [.success F S] ∧ ∀ l ∈ c, ¬ Spec.Verdict l := by
  obtain ⟨c, a, rfl, hin, hl, -⟩ := nlcgOut_adds ops oe prm fuel rank h
  rcases hl with hl | ⟨-, hne⟩
  · rcases hl.ends rfl with ⟨-, e, F, S, rfl, he⟩ | ⟨hf, -⟩ | ⟨hf, -⟩
    · rw [show c ++ (e ++ [.line (.success F S), .flush]) = (c ++ e ++ [.line (.success F S)]) ++ [.flush] by simp]
        at hd ⊢
      have hall := onDisk_flushed hd
      refine ⟨hall, Spec.text c ++ Spec.text e, F, S, by rw [hall]; simp [Spec.text], fun l hl => ?_⟩
      rcases List.mem_append.mp hl with hl | hl
      · exact hin.no_verdict l hl
      · exact he l hl
    · rw [hi] at hf; cases hf
    · rw [hi] at hf; cases hf
  · exact absurd rfl (hne info)

/-- **C110** is false of the code for every run that returns without convergence: the file may contain no message
that tells how the run ended. If the iterations are used up no such message exists; if no step was found the
message is the last one and is not flushed. -/
theorem C110_unconverged_untold {ops : Ops α σ ρ δ} {oe : OutEnv α σ ρ δ} {prm : NlcgParams α} {fuel rank : Nat}
    {w w' : NState α σ} {o : List (OutOp α)} {info : Info α}
    (h : nlcgOut ops oe prm fuel rank (w, []) = some (.ok info, (w', o))) (hi : info.converged = false) :
    ∃ d, Spec.OnDisk o d ∧ ∀ l ∈ d, ¬ Spec.Verdict l := by
  obtain ⟨c, a, rfl, hin, hl, -⟩ := nlcgOut_adds ops oe prm fuel rank h
  have hor : ∀ {e : List (OutOp α)}, (∀ l ∈ Spec.text e, ¬ Spec.Verdict l) →
      ∀ l ∈ Spec.text (c ++ e), ¬ Spec.Verdict l := by
    intro e he l hl
    rw [text_append, List.mem_append] at hl
    rcases hl with hl | hl
    · exact hin.no_verdict l hl
    · exact he l hl
  rcases hl with hl | ⟨-, hne⟩
  · rcases hl.ends rfl with ⟨ht, -⟩ | ⟨-, e, l, rfl, -, he⟩ | ⟨-, -, he⟩
    · rw [hi] at ht; cases ht
    · refine ⟨Spec.text (c ++ e), ?_, hor he⟩
      rw [← List.append_assoc]
      exact onDisk_without _ _
    · refine ⟨Spec.text (c ++ a), ⟨List.prefix_rfl, fun p q hpq => ?_⟩, hor he⟩
      rw [hpq]
      simp
  · exact absurd rfl (hne info)

/-- functions that log nothing -/
def mute : OutEnv α σ ρ δ := ⟨fun _ => [], fun _ _ => [], fun _ _ _ => [], fun _ _ _ _ => []⟩

/-- **C110**: a run that fails in its second iteration, logs why, returns, and of whose file the reason may be
missing. -/
theorem C110_not_reason : ∃ (w' : NState ℚ ℚ) (o : List (OutOp ℚ)) (info : Info ℚ) (d : List (OutLine ℚ)),
    nlcgOut badOps mute { maxiter := 5, tol := 1 / 100, tau := 1 / 1000, restart := 2 } 9 0 (blank 7, []) =
      some (.ok info, (w', o)) ∧ info.converged = false ∧
    .noDescent ∈ Spec.text o ∧ Spec.OnDisk o d ∧ .noDescent ∉ d := by
  obtain ⟨w', hrun, -⟩ := bad_run
  rw [← C110_same_run badOps mute _ 9 0 (blank 7) []] at hrun
  have hlast : (nlcgOut badOps mute { maxiter := 5, tol := 1 / 100, tau := 1 / 1000, restart := 2 } 9 0
      (blank 7, [])).map (fun x => decide (OutLine.noDescent ∈ Spec.text x.2.2)) = some true := by
    decide +kernel
  cases hm : nlcgOut badOps mute { maxiter := 5, tol := 1 / 100, tau := 1 / 1000, restart := 2 } 9 0
      (blank 7, []) with
  | none => rw [hm] at hrun; simp at hrun
  | some q =>
    obtain ⟨r, w1, o⟩ := q
    rw [hm] at hrun hlast
    simp only [Option.map_some, Option.some.injEq, Prod.mk.injEq] at hrun
    obtain ⟨rfl, rfl⟩ := hrun
    obtain ⟨d, hd, hv⟩ := C110_unconverged_untold hm rfl
    exact ⟨w1, o, _, d, rfl, rfl, by simpa using hlast, hd, fun h => hv _ h trivial⟩

/-- the run of `toy_run`: its second iteration begins after a flush, two reports are made, it converges -/
example : (nlcgOut (toyOps (1 : ℚ)) mute { maxiter := 5, tol := 1 / 100, tau := 1 / 10, restart := 2 } 9 0
    (blank 7, [])).map (fun x => x.2.2) = some
    [.line .header, .iteration 0, .line (.report 0 1 0 (-4)), .line (.note "line search t_trial ="),
      .line (.note "t_min =  q line prediction error:  dE:"), .line (.note "line search took: seconds"),
      .line (.note "steepest descent took: seconds"), .flush,
      .iteration 1, .line (.report 1 0 0 0), .line (.success 0 0), .flush] := by
  decide +kernel

end Nlcg
