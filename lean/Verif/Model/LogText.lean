import Verif.Model.Basic
import Mathlib.Data.Int.Notation
import Mathlib.Data.Nat.Notation

/-!
# How messages become text

`Logger` converts each message with a string stream that it keeps, `sbuf_` (`src/utils/logger.hpp:39-58`,
`107`). Before a message only the text of that stream is cleared; field width, adjustment, notation and precision
stay as the last message left them. `Verif/Model/Logger.lean` and `Verif/Model/OutFile.lean` start from
finished texts; here are the manipulators. Only those the library uses are modelled (`std::right`,
`std::internal`, `std::defaultfloat`, `std::setfill` do not occur in `/repo/src`).
-/

namespace Nlcg
variable {α : Type}

/-- the notation of floating point numbers -/
inductive FloatField where
  | general
  | fixed
  | scientific
  deriving DecidableEq

/-- the state of a stream; the defaults are those of a new stream -/
structure LogFmt where
  width : ℕ := 0
  left : Bool := false
  field : FloatField := .general
  prec : ℕ := 6
  deriving DecidableEq

/-- what is handed to `operator<<` of the logger -/
inductive LogItem (α : Type) where
  | text (s : List Char)
  | num (x : α)
  | int (i : ℤ)
  | setw (n : ℕ)
  | left
  | fixed
  | scientific
  | prec (n : ℕ)

/-- the digits of a number, without padding -/
structure Digits (α : Type) where
  num : FloatField → ℕ → α → List Char
  int : ℤ → List Char

/-- formatted output of a text: filled up to the field width, which is then reset (C++ standard,
`ostream.formatted`) -/
def padded (f : LogFmt) (s : List Char) : List Char :=
  if f.left then s ++ List.replicate (f.width - s.length) ' '
  else List.replicate (f.width - s.length) ' ' ++ s

/-- `sbuf_ << output` -/
def putItem (dg : Digits α) (f : LogFmt) : LogItem α → LogFmt × List Char
  | .text s => ({ f with width := 0 }, padded f s)
  | .num x => ({ f with width := 0 }, padded f (dg.num f.field f.prec x))
  | .int i => ({ f with width := 0 }, padded f (dg.int i))
  | .setw n => ({ f with width := n }, [])
  | .left => ({ f with left := true }, [])
  | .fixed => ({ f with field := .fixed }, [])
  | .scientific => ({ f with field := .scientific }, [])
  | .prec n => ({ f with prec := n }, [])

def putItems (dg : Digits α) : LogFmt → List (LogItem α) → LogFmt × List Char
  | f, [] => (f, [])
  | f, it :: l =>
    let r := putItem dg f it
    let q := putItems dg r.1 l
    (q.1, r.2 ++ q.2)

/-- the items that one `log << output` sends to the stream: the prefixes first, also before a manipulator,
`src/utils/logger.hpp:45-48` -/
def withPrefixes (prefixes : List (List Char)) (it : LogItem α) : List (LogItem α) :=
  prefixes.flatMap (fun p => [.text p, .text "::".toList]) ++ [it]

/-- a statement `logger << a << b ...` (`plain`) or `logger << TO_STDOUT << a << b ...` -/
inductive LogStmt (α : Type) where
  | plain (items : List (LogItem α))
  | toStdout (items : List (LogItem α))

/-- The text of a statement in `nlcg.out` and the state of the logger's stream afterwards. `<< TO_STDOUT` yields
a new logger whose stream is new, `src/utils/logger.hpp:60-67`; the statement goes through that one. -/
def stmtText (dg : Digits α) (prefixes : List (List Char)) (f : LogFmt) : LogStmt α → LogFmt × List Char
  | .plain items => putItems dg f (items.flatMap (withPrefixes prefixes))
  | .toStdout items => (f, (putItems dg {} (items.flatMap (withPrefixes prefixes))).2)

/-- the texts of a list of statements, one after the other -/
def logTexts (dg : Digits α) (prefixes : List (List Char)) : LogFmt → List (LogStmt α) → LogFmt × List (List Char)
  | f, [] => (f, [])
  | f, st :: l =>
    let r := stmtText dg prefixes f st
    let q := logTexts dg prefixes r.1 l
    (q.1, r.2 :: q.2)

/-! ## The statements of a call -/

/-- the arguments of `nlcg_us` that are logged and the number of electrons -/
structure CallArgs (α : Type) where
  T : α
  smearing : List Char
  maxiter : ℤ
  tol : α
  kappa : α
  tau : α
  restart : ℤ
  electrons : ℤ

def lit' (s : String) : LogItem α := .text s.toList

/-- `src/nlcglib.cpp:251-265` -/
def paramStmt (a : CallArgs α) : LogStmt α := .plain
  [lit' "nlcglib parameters\n",
   .setw 10, lit' "T ", lit' ": ", .num a.T, lit' "\n",
   .setw 10, lit' "smearing ", lit' ": ", .text a.smearing, lit' "\n",
   .setw 10, lit' "maxiter", lit' ": ", .int a.maxiter, lit' "\n",
   .setw 10, lit' "tol", lit' ": ", .num a.tol, lit' "\n",
   .setw 10, lit' "kappa", lit' ": ", .num a.kappa, lit' "\n",
   .setw 10, lit' "tau", lit' ": ", .num a.tau, lit' "\n",
   .setw 10, lit' "restart", lit' ": ", .int a.restart, lit' "\n"]

/-- `src/nlcglib.cpp:268-269` -/
def countStmts (a : CallArgs α) : List (LogStmt α) :=
  [.plain [lit' "num electrons: ", .int a.electrons, lit' "\n"], .plain [lit' "tol = ", .num a.tol, lit' "\n"]]

/-- `src/nlcglib.cpp:289-291` -/
def tableStmt : LogStmt α := .plain
  [.setw 15, .left, lit' "Iteration", .setw 15, .left, lit' "Free energy", lit' "\t", .setw 15, .left,
   lit' "Residual", lit' "\n"]

/-- `print_info`, `src/nlcglib.cpp:80-86` -/
def reportStmt (step : ℤ) (F S slopeX slopeEta ef ks : α) : LogStmt α := .toStdout
  [.setw 15, .left, .int step, .setw 15, .left, .fixed, .prec 13, .num F, lit' "\t", .setw 15, .left,
   .scientific, .prec 13, .num slopeX, lit' " ", .scientific, .prec 13, .num slopeEta, lit' "\n",
   lit' "\t kT * S       : ", .fixed, .prec 13, .num S, lit' "\n",
   lit' "\t Fermi energy : ", .fixed, .prec 13, .num ef, lit' "\n",
   lit' "\t KS energy    : ", .fixed, .prec 13, .num ks, lit' "\n"]

/-- `src/nlcglib.cpp:330-335` -/
def successStmt (S F ks : α) : LogStmt α := .toStdout
  [lit' "kT * S   : ", .prec 13, .num S, lit' "\n", lit' "F        : ", .prec 13, .num F, lit' "\n",
   lit' "KS-energy: ", .prec 13, .num ks, lit' "\n", lit' "NLCG SUCCESS\n"]

/-- `src/linesearch/linesearch.hpp:34` -/
def trialStmt (t : α) : LogStmt α := .plain [lit' "line search t_trial = ", .scientific, .num t, lit' "\n"]

/-- `src/linesearch/linesearch.hpp:138-140` -/
def predictStmt (tMin err dE : α) : LogStmt α := .plain
  [lit' "\t t_min = ", .num tMin, lit' " q line prediction error: ", .scientific, .prec 8, .num err,
   lit' " dE: ", .scientific, .prec 8, .num dE, lit' "\n"]

/-- what a call logs: the parameters (nothing comes before them unless the first evaluation warns), the first
messages, the head of the table and everything after it -/
def callLog (a : CallArgs α) (first rest : List (LogStmt α)) : List (LogStmt α) :=
  paramStmt a :: (countStmts a ++ first ++ tableStmt :: rest)

end Nlcg
