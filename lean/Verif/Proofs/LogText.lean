import Verif.Spec.LogText
import Mathlib.Tactic.Common

/-! # Lemmas on the text of log messages -/

namespace Nlcg
variable {α : Type}

theorem putItems_append (dg : Digits α) (f : LogFmt) (l l' : List (LogItem α)) :
    putItems dg f (l ++ l') =
      ((putItems dg (putItems dg f l).1 l').1, (putItems dg f l).2 ++ (putItems dg (putItems dg f l).1 l').2) := by
  induction l generalizing f with
  | nil => rfl
  | cons it l ih => simp [putItems, ih]

theorem putItem_left (dg : Digits α) (f : LogFmt) (it : LogItem α) (h : f.left = true) :
    (putItem dg f it).1.left = true := by cases it <;> simp_all [putItem]

theorem putItems_left (dg : Digits α) (f : LogFmt) (l : List (LogItem α)) (h : f.left = true) :
    (putItems dg f l).1.left = true := by
  induction l generalizing f with
  | nil => exact h
  | cons it l ih => exact ih _ (putItem_left dg f it h)

theorem stmtText_left (dg : Digits α) (f : LogFmt) (st : LogStmt α) (pf : List (List Char)) (h : f.left = true) :
    (stmtText dg pf f st).1.left = true := by
  cases st with
  | plain items => exact putItems_left dg f _ h
  | toStdout items => exact h

theorem logTexts_left (dg : Digits α) (pf : List (List Char)) (f : LogFmt) (l : List (LogStmt α)) (h : f.left = true) :
    (logTexts dg pf f l).1.left = true := by
  induction l generalizing f with
  | nil => exact h
  | cons st l ih => exact ih _ (stmtText_left dg f st pf h)

theorem logTexts_append (dg : Digits α) (pf : List (List Char)) (f : LogFmt) (l l' : List (LogStmt α)) :
    logTexts dg pf f (l ++ l') = ((logTexts dg pf (logTexts dg pf f l).1 l').1,
      (logTexts dg pf f l).2 ++ (logTexts dg pf (logTexts dg pf f l).1 l').2) := by
  induction l generalizing f with
  | nil => rfl
  | cons it l ih => simp [logTexts, ih]

theorem withPrefixes_nil (it : LogItem α) : withPrefixes [] it = [it] := rfl

theorem flatMap_withPrefixes_nil (l : List (LogItem α)) : l.flatMap (withPrefixes []) = l := by
  induction l with
  | nil => rfl
  | cons it l ih => simp [withPrefixes_nil, ih]

/-- after a text there is no field width left -/
theorem putItems_text_width (dg : Digits α) (f : LogFmt) (l : List (LogItem α)) (s : List Char) :
    (putItems dg f (l ++ [.text s])).1.width = 0 := by
  simp [putItems_append, putItems, putItem]

theorem stmtText_width (dg : Digits α) (pf : List (List Char)) (f : LogFmt) {st : LogStmt α}
    (h : Spec.EndsWithText st) (hf : f.width = 0) : (stmtText dg pf f st).1.width = 0 := by
  cases st with
  | toStdout items => exact hf
  | plain items =>
    obtain ⟨pre, s, rfl⟩ := h
    simp only [stmtText, List.flatMap_append, List.flatMap_cons, List.flatMap_nil, List.append_nil, withPrefixes,
      ← List.append_assoc]
    exact putItems_text_width ..

theorem logTexts_width (dg : Digits α) (pf : List (List Char)) (f : LogFmt) {l : List (LogStmt α)}
    (h : ∀ st ∈ l, Spec.EndsWithText st) (hf : f.width = 0) : (logTexts dg pf f l).1.width = 0 := by
  induction l generalizing f with
  | nil => exact hf
  | cons st l ih =>
    exact ih _ (fun x hx => h x (List.mem_cons_of_mem _ hx)) (stmtText_width dg pf f (h st (by simp)) hf)

/-- the state of the stream after statements, in terms of the items -/
theorem logTexts_state (dg : Digits α) (f : LogFmt) (l : List (LogStmt α)) :
    (logTexts dg [] f l).1 = (putItems dg f (Spec.plainItems l)).1 := by
  induction l generalizing f with
  | nil => rfl
  | cons st l ih =>
    cases st with
    | plain items =>
      simp only [logTexts, stmtText, flatMap_withPrefixes_nil, Spec.plainItems, putItems_append, ih]
    | toStdout items => simp only [logTexts, stmtText, Spec.plainItems, ih]

/-- a component of the state that each item either keeps or sets -/
theorem settled {β : Type} (dg : Digits α) (get : LogFmt → β) (Sets : LogItem α → Prop)
    (hkeep : ∀ f f' it, get f = get f' → get (putItem dg f it).1 = get (putItem dg f' it).1)
    (hset : ∀ f f' it, Sets it → get (putItem dg f it).1 = get (putItem dg f' it).1)
    (f f' : LogFmt) (l : List (LogItem α)) (h : ∃ it ∈ l, Sets it) :
    get (putItems dg f l).1 = get (putItems dg f' l).1 := by
  have keep : ∀ (l : List (LogItem α)) f f', get f = get f' →
      get (putItems dg f l).1 = get (putItems dg f' l).1 := by
    intro l
    induction l with
    | nil => exact fun f f' h => h
    | cons it l ih => exact fun f f' h => ih _ _ (hkeep f f' it h)
  induction l generalizing f f' with
  | nil => simp at h
  | cons it l ih =>
    obtain ⟨x, hx, hs⟩ := h
    rcases List.mem_cons.mp hx with rfl | hx
    · exact keep l _ _ (hset f f' x hs)
    · exact ih _ _ ⟨x, hx, hs⟩

theorem chosen_state (dg : Digits α) (f f' : LogFmt) (hf : f.width = 0) (hf' : f'.width = 0) {l : List (LogStmt α)}
    (he : ∀ st ∈ l, Spec.EndsWithText st) (h : Spec.AllChosen l) :
    (logTexts dg [] f l).1 = (logTexts dg [] f' l).1 := by
  have hw := logTexts_width dg [] f he hf
  have hw' := logTexts_width dg [] f' he hf'
  rw [logTexts_state] at hw hw' ⊢
  rw [logTexts_state]
  have h1 := settled dg LogFmt.left (fun it => it = .left)
    (fun f f' it h => by cases it <;> simp_all [putItem]) (fun f f' it h => by subst h; rfl) f f'
    (Spec.plainItems l) ⟨_, h.left, rfl⟩
  have h2 := settled dg LogFmt.field Spec.SetsField
    (fun f f' it h => by cases it <;> simp_all [putItem])
    (fun f f' it h => by cases it <;> first | rfl | exact h.elim) f f' (Spec.plainItems l) h.field
  have h3 := settled dg LogFmt.prec Spec.SetsPrec
    (fun f f' it h => by cases it <;> simp_all [putItem])
    (fun f f' it h => by cases it <;> first | rfl | exact h.elim) f f' (Spec.plainItems l) h.prec
  generalize (putItems dg f (Spec.plainItems l)).1 = a at *
  generalize (putItems dg f' (Spec.plainItems l)).1 = b at *
  cases a; cases b
  simp_all

theorem paramStmt_head (a : CallArgs α) : ∃ rest,
    paramStmt a = .plain (lit' "nlcglib parameters\n" :: .setw 10 :: lit' "T " :: rest) := ⟨_, rfl⟩

theorem padded_zero (f : LogFmt) (s : List Char) (hw : f.width = 0) : padded f s = s := by
  rw [padded, hw]
  simp only [Nat.zero_sub, List.replicate_zero, List.append_nil, List.nil_append, ite_self]

theorem putItems_head (dg : Digits α) (f : LogFmt) (p q : List Char) (n : ℕ) (rest : List (LogItem α))
    (hw : f.width = 0) : ∃ tail, (putItems dg f (.text p :: .setw n :: .text q :: rest)).2 =
      p ++ (padded { f with width := n } q ++ tail) := by
  simp only [putItems, putItem, padded_zero f p hw, List.nil_append]
  exact ⟨_, rfl⟩

/-- the first statement of a call, up to the value of `T` -/
theorem paramText (dg : Digits α) (f : LogFmt) (a : CallArgs α) (hw : f.width = 0) :
    ∃ tail, (stmtText dg [] f (paramStmt a)).2 =
      "nlcglib parameters\n".toList ++ (padded { f with width := 10 } "T ".toList ++ tail) := by
  obtain ⟨rest, hr⟩ := paramStmt_head a
  rw [hr, stmtText, flatMap_withPrefixes_nil]
  exact putItems_head dg f _ _ 10 rest hw

end Nlcg
