import Verif.Model.Basic
import Verif.Model.KMap
import Mathlib.Data.List.Lex
import Mathlib.Data.Char

/-!
# The bytes of `nlcg.json`

`src/utils/step_logger.hpp`, `src/nlcglib.cpp:97-140`: a record is a JSON object, its compact text is appended
to the file when the logger is destroyed.

Trusted: the text of JSON values (nlohmann-json: compact, sorted keys, control characters escaped, numbers that are
not finite become `null`, text that is not valid UTF-8 makes the serialiser throw).
-/

namespace Nlcg

/-- A JSON value. Numbers are given by their text. Texts are lists of characters, `none` stands for bytes that
are not valid UTF-8. -/
inductive Json where
  | null
  | num (t : List Char)
  | str (s : Option (List Char))
  | arr (xs : List Json)
  | obj (fs : List (Option (List Char) × Json))

/-- the text of one character inside a string -/
def escChar (c : Char) : List Char :=
  if c = '"' then ['\\', '"']
  else if c = '\\' then ['\\', '\\']
  else if c = '\x08' then ['\\', 'b']
  else if c = '\t' then ['\\', 't']
  else if c = '\n' then ['\\', 'n']
  else if c = '\x0c' then ['\\', 'f']
  else if c = '\r' then ['\\', 'r']
  else if c.toNat < 32 then ['\\', 'u', '0', '0', Nat.digitChar (c.toNat / 16), Nat.digitChar (c.toNat % 16)]
  else [c]

def escText : List Char → List Char
  | [] => []
  | c :: cs => escChar c ++ escText cs

/-- the text of a string; nothing if it is not valid (`Json.valid`) -/
def quoted : Option (List Char) → List Char
  | some s => '"' :: (escText s ++ ['"'])
  | none => []

mutual
/-- `fout << dict`, `src/utils/step_logger.hpp:46` -/
def Json.text : Json → List Char
  | .null => ['n', 'u', 'l', 'l']
  | .num t => t
  | .str s => quoted s
  | .arr [] => ['[', ']']
  | .arr (x :: xs) => '[' :: (x.text ++ (Json.textMore xs ++ [']']))
  | .obj [] => ['{', '}']
  | .obj ((k, x) :: fs) => '{' :: (quoted k ++ ':' :: (x.text ++ (Json.textFields fs ++ ['}'])))
/-- the elements of an array behind the first -/
def Json.textMore : List Json → List Char
  | [] => []
  | x :: xs => ',' :: (x.text ++ Json.textMore xs)
/-- the members of an object behind the first -/
def Json.textFields : List (Option (List Char) × Json) → List Char
  | [] => []
  | (k, x) :: fs => ',' :: (quoted k ++ ':' :: (x.text ++ Json.textFields fs))
end

mutual
/-- all texts are valid UTF-8 -/
def Json.valid : Json → Bool
  | .null => true
  | .num _ => true
  | .str s => s.isSome
  | .arr xs => Json.validAll xs
  | .obj fs => Json.validFields fs
def Json.validAll : List Json → Bool
  | [] => true
  | x :: xs => x.valid && Json.validAll xs
def Json.validFields : List (Option (List Char) × Json) → Bool
  | [] => true
  | (k, x) :: fs => k.isSome && x.valid && Json.validFields fs
end

/-- how numbers are written: integers; real numbers, `none` if not finite -/
structure NumFmt (α : Type) where
  int : ℤ → List Char
  real : α → Option (List Char)

variable {α : Type}

/-- a real number in a record -/
def NumFmt.json (nf : NumFmt α) (x : α) : Json :=
  match nf.real x with
  | some t => .num t
  | none => .null

/-- What is logged in one step, `src/nlcglib.cpp:97-140`. The energy components are a `std::map`, the bands
the gathered arrays in order of their keys. -/
structure StepData (α : Type) where
  step : ℤ
  F : α
  eks : α
  entropy : α
  slopeX : α
  slopeEta : α
  efermi : α
  comps : List (Option (List Char) × α)
  bands : Option (List (Key × List α) × List (Key × List α))

/-- the object `dict` of a `StepLogger`, `src/utils/step_logger.hpp:55` -/
abbrev Dict := KMap (List Char) Json

/-- the constructor, `src/utils/step_logger.hpp:29-34` -/
def Dict.start (nf : NumFmt α) (i : ℤ) : Dict :=
  KMap.set "step".toList (.num (nf.int i)) (KMap.set "type".toList (.str (some "cg_iteration".toList)) [])

/-- `log(key, x)` for a number, `src/utils/step_logger.hpp:58-64` -/
def Dict.logNum (nf : NumFmt α) (key : String) (x : α) (d : Dict) : Dict := KMap.set key.toList (nf.json x) d

/-- `log(key, v)` for a map, `src/utils/step_logger.hpp:66-71` -/
def Dict.logMap (nf : NumFmt α) (key : String) (v : List (Option (List Char) × α)) (d : Dict) : Dict :=
  KMap.set key.toList (.obj (v.map fun e => (e.1, nf.json e.2))) d

/-- the object of one k-point, `src/utils/step_logger.hpp:85-88` -/
def bandEntry (nf : NumFmt α) (e : Key × List α) : Json :=
  .obj [(some "ik".toList, .num (nf.int e.1.1)), (some "ispn".toList, .num (nf.int e.1.2)),
    (some "value".toList, .arr (e.2.map nf.json))]

/-- `dict[key] += entry`: a missing member becomes an array with the entry; only arrays occur here otherwise -/
def Dict.push (key : List Char) (x : Json) (d : Dict) : Dict :=
  match KMap.lookup key d with
  | some (.arr xs) => KMap.set key (.arr (xs ++ [x])) d
  | _ => KMap.set key (.arr [x]) d

/-- `log(key, x)` for arrays per k-point, `src/utils/step_logger.hpp:73-91` -/
def Dict.logBands (nf : NumFmt α) (key : String) (v : List (Key × List α)) (d : Dict) : Dict :=
  v.foldl (fun d e => Dict.push key.toList (bandEntry nf e) d) d

/-- the calls of `cg_write_step_json` in their order, `src/nlcglib.cpp:110-139` -/
def stepDict (nf : NumFmt α) (r : StepData α) : Dict :=
  let d := Dict.start nf r.step
  let d := d.logNum nf "F" r.F
  let d := d.logNum nf "EKS" r.eks
  let d := d.logNum nf "entropy" r.entropy
  let d := d.logNum nf "slope_x" r.slopeX
  let d := d.logNum nf "slope_eta" r.slopeEta
  let d := d.logNum nf "fermi_energy" r.efermi
  let d := d.logMap nf "ks_energy_comps" r.comps
  match r.bands with
  | some (e, f) => (d.logBands nf "eta" e).logBands nf "fn" f
  | none => d

/-- the record as JSON -/
def stepJson (nf : NumFmt α) (r : StepData α) : Json := .obj ((stepDict nf r).map fun e => (some e.1, e.2))

/-- The destructor, `src/utils/step_logger.hpp:42-49`: appends to the file if `active`. `room` is how many more bytes
the file can take (errors of the stream are ignored). If the serialiser throws, the program is terminated, as
destructors are `noexcept`. The name given to the constructor is not used. -/
def closeLogger (active : Bool) (room : ℕ) (j : Json) (file : List Char) : Res (List Char) :=
  if active then
    if j.valid then .ok (file ++ j.text.take room) else .abort
  else .ok file

/-- the steps of a run on rank 0, with enough room -/
def writeSteps (nf : NumFmt α) : List (StepData α) → List Char → Res (List Char)
  | [], file => .ok file
  | r :: rs, file => do
    let file' ← closeLogger true (stepJson nf r).text.length (stepJson nf r) file
    writeSteps nf rs file'

end Nlcg
