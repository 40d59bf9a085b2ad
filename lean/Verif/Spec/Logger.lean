import Verif.Model.Logger

/-!
# Where text should go, in terms of the calls made so far
-/

namespace Nlcg.Spec

/-- does this call open a log file on rank `pid` -/
def opens (pid : ℕ) : LogOp → Bool
  | .attachFile => true
  | .attachFileMaster => pid == 0
  | _ => false

/-- the log file of rank `pid` after these calls: the one opened last (files are numbered from 0) -/
def logFile (pid : ℕ) (ops : List LogOp) : Option ℕ :=
  match ops.countP (opens pid) with
  | 0 => none
  | k + 1 => some k

/-- is this one of the two switches of standard output; to what does it set it -/
def switch : LogOp → Option Bool
  | .detachStdout => some false
  | .attachStdout => some true
  | _ => none

/-- standard output is attached unless the last switch was to detach it -/
def StdoutOn (ops : List LogOp) : Prop := (ops.filterMap switch).getLast? ≠ some false

/-- where a message should go after the calls `ops` on rank `r`; `marked`: it is marked `TO_STDOUT` -/
def Goes (r : ℕ) (ops : List LogOp) (marked : Prop) : Sink → Prop
  | .file f => logFile r ops = some f
  | .stdout => r = 0 ∧ (StdoutOn ops ∨ marked)

/-- a message with its prefixes, as in `a::b::message` -/
def prefixed (prefixes : List String) (msg : String) : String :=
  String.join (prefixes.map (· ++ "::") ++ [msg])

/-- text that a sink has received -/
def received (s : LogState) (k : Sink) : List String :=
  s.written.filterMap fun w => if w.1 = k then some w.2 else none

end Nlcg.Spec
