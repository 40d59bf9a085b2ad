import Verif.Model.Basic
import Mathlib.Data.Int.Notation
import Mathlib.Data.Nat.Notation

/-!
# The logger

`src/utils/logger.hpp`. Messages are strings (after conversion by `operator<<` of the stream).
-/

namespace Nlcg

/-- where a piece of text went; a file is named by the number of the attachment that opened it -/
inductive Sink where
  | file (id : ℕ)
  | stdout
  deriving DecidableEq

/-- the members of `Logger` and what has been written so far; `stream`: the open file, if any,
`opened`: number of files opened so far -/
structure LogState where
  prefixes : List String
  stream : Option ℕ
  detached : Bool
  pid : ℕ
  opened : ℕ
  written : List (Sink × String)

/-- a new logger on rank `pid` -/
def logInit (pid : ℕ) : LogState := ⟨[], none, false, pid, 0, []⟩

/-- `sbuf_` for a message: the prefixes and the message, `src/utils/logger.hpp:43-48` -/
def logText (prefixes : List String) (msg : String) : String :=
  prefixes.foldr (fun p s => p ++ "::" ++ s) msg

/-- what `operator<<` writes for a message, `src/utils/logger.hpp:39-58` -/
def logWrites (s : LogState) (msg : String) : List (Sink × String) :=
  (match s.stream with
    | some f => [(Sink.file f, logText s.prefixes msg)]
    | none => []) ++
  (if !s.detached && s.pid == 0 then [(.stdout, logText s.prefixes msg)] else [])

/-- the calls on a logger -/
inductive LogOp where
  /-- `log << msg` -/
  | write (msg : String)
  /-- `log << TO_STDOUT << m1 << m2 ...` -/
  | writeStdout (msgs : List String)
  | attachFile
  | attachFileMaster
  | pushPrefix (p : String)
  | popPrefix
  | clearPrefix
  | flush
  | detachStdout
  | attachStdout

/-- Effect of a call; `pop_back` of an empty list is undefined. `src/utils/logger.hpp:25-110`.
The logger returned by `<< TO_STDOUT` is a new object on the same rank that shares the file,
`src/utils/logger.hpp:60-67`; the statement's messages go to that object. -/
def logStep (s : LogState) : LogOp → Res LogState
  | .write msg => .ok { s with written := s.written ++ logWrites s msg }
  | .writeStdout msgs =>
    let tmp : LogState := { (logInit s.pid) with prefixes := s.prefixes, stream := s.stream, detached := false }
    .ok { s with written := s.written ++ msgs.flatMap (logWrites tmp) }
  | .attachFile => .ok { s with stream := some s.opened, opened := s.opened + 1 }
  | .attachFileMaster =>
    if s.pid = 0 then .ok { s with stream := some s.opened, opened := s.opened + 1 } else .ok s
  | .pushPrefix p => .ok { s with prefixes := s.prefixes ++ [p] }
  | .popPrefix => if s.prefixes = [] then .ub else .ok { s with prefixes := s.prefixes.dropLast }
  | .clearPrefix => .ok { s with prefixes := [] }
  | .flush => .ok s
  | .detachStdout => .ok { s with detached := true }
  | .attachStdout => .ok { s with detached := false }

def logRun (s : LogState) : List LogOp → Res LogState
  | [] => .ok s
  | o :: os => do let s' ← logStep s o; logRun s' os

/-! ## Several threads

`std::lock_guard<std::mutex> lock(std::mutex);` declares a function `lock`; no lock is taken. The steps
of `operator<<` on the shared buffer `sbuf_` are therefore interleaved. Each step is atomic here, which
is more than C++ promises: the real accesses race. -/

/-- position of a thread in `operator<<(msg)`: `done = 0`: before `sbuf_.str("")`, `1`: before
`sbuf_ << output`, `2`: before `out << sbuf_.str()`, `3`: finished -/
structure LogThread where
  msg : String
  done : ℕ

structure SharedLog where
  sbuf : String
  file : List String
  thread : List LogThread

/-- the next step of thread `t`, `src/utils/logger.hpp:42-53` without prefixes -/
def sharedStep (s : SharedLog) (t : ℕ) : Option SharedLog :=
  match s.thread[t]? with
  | none => none
  | some th =>
    match th.done with
    | 0 => some { s with sbuf := "", thread := s.thread.set t { th with done := 1 } }
    | 1 => some { s with sbuf := s.sbuf ++ th.msg, thread := s.thread.set t { th with done := 2 } }
    | 2 => some { s with file := s.file ++ [s.sbuf], thread := s.thread.set t { th with done := 3 } }
    | _ => none

def sharedRun (s : SharedLog) : List ℕ → Option SharedLog
  | [] => some s
  | t :: ts => match sharedStep s t with
    | none => none
    | some s' => sharedRun s' ts

/-- one thread per message -/
def sharedInit (msgs : List String) : SharedLog := ⟨"", [], msgs.map fun m => ⟨m, 0⟩⟩

end Nlcg
