import Verif.Model.StepFile

/-!
# Reading a file of JSON objects

A reader that knows nothing about the writer: it counts brackets outside strings and cuts the text where the count
returns to zero.
-/

namespace Nlcg.Spec

/-- complete texts so far, the text being read, open brackets, inside a string, behind a backslash -/
structure Reader where
  docs : List (List Char)
  cur : List Char
  depth : ℕ
  str : Bool
  esc : Bool

def Reader.start : Reader := { docs := [], cur := [], depth := 0, str := false, esc := false }

/-- read one character -/
def Reader.step (s : Reader) (c : Char) : Reader :=
  if s.str then
    if s.esc then { s with cur := s.cur ++ [c], esc := false }
    else if c = '\\' then { s with cur := s.cur ++ [c], esc := true }
    else if c = '"' then { s with cur := s.cur ++ [c], str := false }
    else { s with cur := s.cur ++ [c] }
  else if c = '"' then { s with cur := s.cur ++ [c], str := true }
  else if c = '{' ∨ c = '[' then { s with cur := s.cur ++ [c], depth := s.depth + 1 }
  else if c = '}' ∨ c = ']' then
    if s.depth = 1 then { s with docs := s.docs ++ [s.cur ++ [c]], cur := [], depth := 0 }
    else { s with cur := s.cur ++ [c], depth := s.depth - 1 }
  else { s with cur := s.cur ++ [c] }

/-- read a text -/
def read (s : Reader) (t : List Char) : Reader := t.foldl Reader.step s

/-- a number is written with these characters, at least one -/
def NumText (t : List Char) : Prop := t ≠ [] ∧ ∀ c ∈ t, c ∈ "0123456789+-.eE".toList

/-- how numbers are written is sensible: with the right characters, different numbers differently -/
structure FmtOk {α : Type} (nf : NumFmt α) : Prop where
  int : ∀ i, NumText (nf.int i)
  real : ∀ x t, nf.real x = some t → NumText t
  int_inj : ∀ i j, nf.int i = nf.int j → i = j
  real_inj : ∀ x y t, nf.real x = some t → nf.real y = some t → x = y

/-- the numbers of a record are finite, its texts valid, and k-points are present if bands are logged -/
structure RecordOk {α : Type} (nf : NumFmt α) (r : StepData α) : Prop where
  scalars : ∀ x ∈ [r.F, r.eks, r.entropy, r.slopeX, r.slopeEta, r.efermi], nf.real x ≠ none
  comps : ∀ e ∈ r.comps, e.1 ≠ none ∧ nf.real e.2 ≠ none
  bands : ∀ e f, r.bands = some (e, f) → e ≠ [] ∧ f ≠ [] ∧ (∀ v ∈ e ++ f, ∀ x ∈ v.2, nf.real x ≠ none)

/-- the texts of the records -/
def texts {α : Type} (nf : NumFmt α) (rs : List (StepData α)) : List (List Char) := rs.map fun r => (stepJson nf r).text

end Nlcg.Spec
