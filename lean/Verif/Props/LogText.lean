import Verif.Proofs.LogText
import Verif.Props.OutFile
import Verif.Props.Solver

/-!
# C115: earlier calls in the same process do not influence a run
-/

namespace Nlcg
open Arith

section
variable {α σ ρ δ : Type} [Arith α]

/-- **C115** for the driver: two runs start in the same state of host and solver, but different things are left
over from before: `nlcg.json`, `nlcg.out`, the record, the flag of the line search, the trace. If the run is not
refused at once, the outcome, the state afterwards, the record, the trace, `nlcg.json` and the messages and flushes
are the same. -/
theorem C115_leftovers (ops : Ops α σ ρ δ) (oe : OutEnv α σ ρ δ) (prm : NlcgParams α) (fuel rank : Nat)
    (w1 w2 : NState α σ) (o1 o2 : List (OutOp α)) (hs : w2.s = w1.s) (s1 : σ)
    (hc : ops.construct w1.s = (.ok (), s1)) :
    (nlcgOut ops oe prm fuel rank (w1, o1) = none ∧ nlcgOut ops oe prm fuel rank (w2, o2) = none) ∨
    ∃ r w1' w2' o, nlcgOut ops oe prm fuel rank (w1, o1) = some (r, (w1', o)) ∧
      nlcgOut ops oe prm fuel rank (w2, o2) = some (r, (w2', o)) ∧
      w2'.s = w1'.s ∧ w2'.file = w1'.file ∧ w2'.info = w1'.info ∧ w2'.trace = w1'.trace := by
  have fin : ∀ q : Option (Res (Info α) × NState α σ × List (OutOp α)), (q = none ∧ q = none) ∨
      ∃ r w1' w2' o, q = some (r, (w1', o)) ∧ q = some (r, (w2', o)) ∧
        w2'.s = w1'.s ∧ w2'.file = w1'.file ∧ w2'.info = w1'.info ∧ w2'.trace = w1'.trace := by
    rintro (_ | ⟨r, w, o⟩)
    · exact Or.inl ⟨rfl, rfl⟩
    · exact Or.inr ⟨r, w, w, o, rfl, rfl, rfl, rfl, rfl, rfl⟩
  simp only [nlcgOut, FM.bind_apply, silent, FM.modify_apply, liftOp, hc, hs, outs, FM.get_apply]
  rcases ops.setup s1 with ⟨r, s2⟩
  cases r with
  | throw e => exact Or.inr ⟨_, _, _, _, rfl, rfl, rfl, rfl, rfl, rfl⟩
  | ub => exact Or.inr ⟨_, _, _, _, rfl, rfl, rfl, rfl, rfl, rfl⟩
  | abort => exact Or.inr ⟨_, _, _, _, rfl, rfl, rfl, rfl, rfl, rfl⟩
  | ok pt =>
    dsimp only
    rcases ops.restarted pt s2 with ⟨r, s3⟩
    cases r with
    | throw e => exact Or.inr ⟨_, _, _, _, rfl, rfl, rfl, rfl, rfl, rfl⟩
    | ub => exact Or.inr ⟨_, _, _, _, rfl, rfl, rfl, rfl, rfl, rfl⟩
    | abort => exact Or.inr ⟨_, _, _, _, rfl, rfl, rfl, rfl, rfl, rfl⟩
    | ok sd => exact fin _

end

section
variable {η : Type} {K : ℕ} {n b : Fin K → ℕ} {prm : NlcgParams ℝ} {fuel rank : ℕ}

/-- **C115** for a call: whatever earlier calls left behind (also the free energy and the entropy, which nothing
initialises), a call with a temperature other than zero does the same to a host in the same state: same outcome,
same calls, same record, same `nlcg.json`. -/
theorem C115_calls (host : Host η n b) (c : Cfg n b) (hT : c.T ≠ 0) (w1 w2 : NState ℝ (SState η n b))
    (hh : w2.s.h = w1.s.h) (hcalls : w2.s.calls = w1.s.calls) :
    (solve host c prm fuel rank w1 = none ∧ solve host c prm fuel rank w2 = none) ∨
    ∃ r w1' w2', solve host c prm fuel rank w1 = some (r, w1') ∧ solve host c prm fuel rank w2 = some (r, w2') ∧
      w2'.s.h = w1'.s.h ∧ w2'.s.calls = w1'.s.calls ∧ w2'.file = w1'.file ∧ w2'.info = w1'.info ∧
      w2'.trace = w1'.trace := by
  have hc : (solverOps host c).construct w2.s = (.ok (), w2.s) := by simp [solverOps, hT]
  have hoe : OutEnv ℝ (SState η n b) (Point n b) (Dir n b) :=
    ⟨fun _ => [], fun _ _ => [], fun _ _ _ => [], fun _ _ _ _ => []⟩
  let w3 : NState ℝ (SState η n b) := { w1 with s := w2.s }
  have ha := C55_no_uninitialised_read (prm := prm) (fuel := fuel) (rank := rank) host c w1 w3
    ⟨hh, hcalls, rfl, rfl, rfl, rfl⟩
  have hb := C115_leftovers (solverOps host c) hoe prm fuel rank w3 w2 [] [] rfl _ hc
  have e3 := C110_same_run (solverOps host c) hoe prm fuel rank w3 []
  have e2 := C110_same_run (solverOps host c) hoe prm fuel rank w2 []
  rcases hb with ⟨hb3, hb2⟩ | ⟨r, v3, v2, o, hb3, hb2, h1, h2, h3, h4⟩
  · rw [hb3] at e3
    rw [hb2] at e2
    rcases ha with ⟨ha1, ha3⟩ | ⟨r, v1, v3, ha1, ha3, -⟩
    · exact Or.inl ⟨ha1, e2.symm⟩
    · rw [solve, ← e3] at ha3
      simp at ha3
  · rw [hb3] at e3
    rw [hb2] at e2
    rcases ha with ⟨ha1, ha3⟩ | ⟨r', v1, v3', ha1, ha3, ⟨g1, g2, g3, g4, g5, g6⟩, -⟩
    · rw [solve, ← e3] at ha3
      simp at ha3
    · rw [solve, ← e3] at ha3
      simp only [Option.map_some, Option.some.injEq, Prod.mk.injEq] at ha3
      obtain ⟨rfl, rfl⟩ := ha3
      exact Or.inr ⟨r, v1, v2, ha1, e2.symm, by rw [h1, g1], by rw [h1, g2], by rw [h2, g3], by rw [h3, g4],
        by rw [h4, g6]⟩

end

section
variable {α : Type}

/-- **C115** for the text of `nlcg.out`: statements that go through a logger of their own (the table of the
iterations, the final energies) have the same text whatever was logged before. -/
theorem C115_own_text (dg : Digits α) (prefixes : List (List Char)) (f f' : LogFmt) (l : List (LogStmt α))
    (h : ∀ st ∈ l, Spec.OwnStream st) : (logTexts dg prefixes f l).2 = (logTexts dg prefixes f' l).2 := by
  induction l generalizing f f' with
  | nil => rfl
  | cons st l ih =>
    have hst := h st (by simp)
    have hl := ih f f' fun x hx => h x (List.mem_cons_of_mem _ hx)
    cases st with
    | plain items => exact hst.elim
    | toStdout items => simp only [logTexts, stmtText, hl]

/-- **C115** for the text of the other statements: two calls log the same, one in a new process, one after other
calls. From the point on where adjustment, notation and precision have each been chosen once, the texts are the
same. Missing: what comes before that point. -/
theorem C115_text_partial (dg : Digits α) (f f' : LogFmt) (hf : f.width = 0) (hf' : f'.width = 0)
    (before after : List (LogStmt α)) (he : ∀ st ∈ before, Spec.EndsWithText st) (hc : Spec.AllChosen before) :
    ∃ t t' u, (logTexts dg [] f (before ++ after)).2 = t ++ u ∧ (logTexts dg [] f' (before ++ after)).2 = t' ++ u ∧
      t.length = before.length ∧ t'.length = before.length := by
  have hlen : ∀ (f : LogFmt) (l : List (LogStmt α)), (logTexts dg [] f l).2.length = l.length := by
    intro f l
    induction l generalizing f with
    | nil => rfl
    | cons st l ih => simp [logTexts, ih]
  refine ⟨_, (logTexts dg [] f' before).2, _, by rw [logTexts_append], ?_, hlen f before, hlen f' before⟩
  rw [logTexts_append, chosen_state dg f f' hf hf' he hc]

/-- The text of `nlcg.out` does depend on earlier calls: a second call that logs exactly what the first one
logged, whatever that was, writes a different text. The names of the parameters are right-aligned in the first
call of a process and left-aligned in all later ones. -/
theorem C115_not_same_text (dg : Digits α) (a : CallArgs α) (first rest : List (LogStmt α))
    (h : ∀ st ∈ first ++ rest, Spec.EndsWithText st) :
    (logTexts dg [] (logTexts dg [] {} (callLog a first rest)).1 (callLog a first rest)).2 ≠
      (logTexts dg [] {} (callLog a first rest)).2 := by
  have hends : ∀ st ∈ callLog a first rest, Spec.EndsWithText st := by
    intro st hst
    simp only [callLog, countStmts, List.mem_cons, List.mem_append, List.not_mem_nil, or_false] at hst
    have hor : ∀ x, x ∈ first ∨ x ∈ rest → Spec.EndsWithText x := fun x hx => h x (List.mem_append.mpr hx)
    rcases hst with rfl | ((rfl | rfl) | hst) | rfl | hst
    · exact ⟨(_ :: _ :: _ :: _ :: _ :: _ :: _ :: _ :: _ :: _ :: _ :: _ :: _ :: _ :: _ :: _ :: _ :: _ :: _ :: _ :: _ ::
        _ :: _ :: _ :: _ :: _ :: _ :: _ :: _ :: _ :: _ :: _ :: _ :: _ :: _ :: []), _, rfl⟩
    · exact ⟨[_, _], _, rfl⟩
    · exact ⟨[_, _], _, rfl⟩
    · exact hor _ (Or.inl hst)
    · exact ⟨[_, _, _, _, _, _, _, _, _, _], _, rfl⟩
    · exact hor _ (Or.inr hst)
  have hw := logTexts_width dg [] {} hends rfl
  have hl : (logTexts dg [] {} (callLog a first rest)).1.left = true := by
    rw [show callLog a first rest = (paramStmt a :: (countStmts a ++ first)) ++ tableStmt :: rest by
      simp [callLog], logTexts_append]
    simp only [logTexts]
    apply logTexts_left
    simp only [stmtText, flatMap_withPrefixes_nil, tableStmt, lit', putItems, putItem]
  intro he
  obtain ⟨t, ht⟩ := paramText dg (logTexts dg [] {} (callLog a first rest)).1 a hw
  obtain ⟨t', ht'⟩ := paramText dg {} a rfl
  have h0 : (stmtText dg [] (logTexts dg [] {} (callLog a first rest)).1 (paramStmt a)).2 =
      (stmtText dg [] {} (paramStmt a)).2 := by
    have := congrArg List.head? he
    simp only [callLog, logTexts, List.head?_cons, Option.some.injEq] at this
    exact this
  rw [ht, ht', List.append_cancel_left_eq, padded, padded, if_pos (by exact hl)] at h0
  revert h0
  simp [List.replicate]

/-! ## Concrete cases -/

/-- what is logged by a call with one step and a table of two rows -/
def shortCall (x : α) : List (LogStmt α) :=
  callLog ⟨x, "Gaussian-spline".toList, 10, x, x, x, 2, 4⟩ []
    [reportStmt 0 x x x x x x, trialStmt x, predictStmt x x x, reportStmt 1 x x x x x x, successStmt x x x]

/-- After the message with the prediction of the line search the formats are chosen: a second call in the same
process and a first one agree on all that follows. -/
example (x : α) : Spec.AllChosen (callLog ⟨x, "cold".toList, 10, x, x, x, 2, 4⟩ []
    [reportStmt 0 x x x x x x, trialStmt x, predictStmt x x x]) := by
  refine ⟨?_, ⟨.scientific, ?_, trivial⟩, ⟨.prec 8, ?_, trivial⟩⟩ <;>
  simp [callLog, paramStmt, countStmts, tableStmt, reportStmt, trialStmt, predictStmt, Spec.plainItems]

example (dg : Digits α) (x : α) :
    (logTexts dg [] (logTexts dg [] {} (shortCall x)).1 (shortCall x)).2 ≠ (logTexts dg [] {} (shortCall x)).2 := by
  refine C115_not_same_text dg _ [] _ fun st hst => ?_
  simp only [List.nil_append, List.mem_cons, List.not_mem_nil, or_false] at hst
  rcases hst with rfl | rfl | rfl | rfl | rfl
  · exact ⟨[_, _, _, _, _, _, _, _, _, _, _, _, _, _, _, _, _, _, _, _, _, _, _, _, _, _, _, _, _, _, _, _, _], _, rfl⟩
  · exact ⟨[_, _, _], _, rfl⟩
  · exact ⟨[_, _, _, _, _, _, _, _, _, _], _, rfl⟩
  · exact ⟨[_, _, _, _, _, _, _, _, _, _, _, _, _, _, _, _, _, _, _, _, _, _, _, _, _, _, _, _, _, _, _, _, _], _, rfl⟩
  · exact ⟨[_, _, _, _, _, _, _, _, _, _, _, _], _, rfl⟩

/-- the tolerance `tol` is also written in a different notation: in the general one in a new process, in the
scientific one with eight digits after a line search -/
example (dg : Digits α) (x : α) : (logTexts dg [] {} [LogStmt.plain [lit' "tol = ", .num x]]).2 =
      ["tol = ".toList ++ dg.num .general 6 x] ∧
    (logTexts dg [] {} [predictStmt x x x, LogStmt.plain [lit' "tol = ", .num x]]).2[1]? =
      some ("tol = ".toList ++ dg.num .scientific 8 x) := by
  constructor <;> simp [logTexts, stmtText, withPrefixes_nil, putItems, putItem, lit', padded, predictStmt]

/-- a run with something left over from before does what it would have done without -/
example (w : NState ℝ (SState (LState demoN demoB) demoN demoB)) (fuel : ℕ) (prm : NlcgParams ℝ) (rec : JsonRec ℝ)
    (r : Res (Info ℝ)) (w' : NState ℝ (SState (LState demoN demoB) demoN demoB))
    (h : solve demoHost (demoCfg demoOcc) prm fuel 0 w = some (r, w')) : ∃ w2,
    solve demoHost (demoCfg demoOcc) prm fuel 0
      { w with file := [rec], force := true, s := { w.s with F := 17, S := 4 } } = some (r, w2) ∧
    w2.file = w'.file := by
  rcases C115_calls (prm := prm) (fuel := fuel) (rank := 0) demoHost (demoCfg demoOcc) (by norm_num [demoCfg]) w
      { w with file := [rec], force := true, s := { w.s with F := 17, S := 4 } } rfl rfl with
    ⟨h1, -⟩ | ⟨r', v, v2, h1, h2, -, -, hf, -⟩
  · rw [h1] at h; cases h
  · rw [h1] at h
    cases h
    exact ⟨v2, h2, hf⟩

end

end Nlcg
