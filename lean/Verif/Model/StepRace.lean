import Verif.Model.Spmd

/-!
# The file `nlcg.json` while several ranks run

All ranks work in the same directory. Every rank removes `nlcg.json` when its run starts
(`src/nlcglib.cpp:247`), rank 0 of `commk` appends a record per iteration
(`src/utils/step_logger.hpp:42-49`, `src/nlcglib.cpp:119-121`). Nothing orders these calls but the
collective operations between them. A rank is a list of actions, a schedule the list of ranks whose
turn it is; a rank that waits in a collective operation loses its turn. A rank that is never
scheduled again has crashed or hangs.

Opening, writing and closing the file is one action.
-/

namespace Nlcg

/-- what a rank does to the file, and the collective operations that hold it up -/
inductive FileAct (β : Type) where
  /-- `remove("nlcg.json")`, `src/nlcglib.cpp:247` -/
  | remove
  /-- the rank hands its contribution to a collective operation -/
  | enter
  /-- the rank returns from that operation: the result depends on the contribution of every rank -/
  | leave
  /-- `~StepLogger`, `src/utils/step_logger.hpp:42-49` -/
  | append (x : β)
  deriving DecidableEq

/-- the file, the actions every rank has taken (for the statements), the actions it has left -/
structure FileState (R : ℕ) (β : Type) where
  file : List β
  done : Fin R → List (FileAct β)
  todo : Fin R → List (FileAct β)

namespace FileAct
variable {β : Type}

def isEnter : FileAct β → Bool
  | enter => true
  | _ => false

/-- number of collective operations entered -/
def entered (l : List (FileAct β)) : ℕ := l.countP isEnter

/-- the effect of an action on the file -/
def effect (file : List β) : FileAct β → List β
  | remove => []
  | append x => file ++ [x]
  | enter => file
  | leave => file

end FileAct

variable {R : ℕ} {β : Type}

/-- a rank cannot return from a collective operation that another rank has not entered: `MPI_Allgather`
in `mvector::allgather`, `src/la/mvector.hpp:149`, `172`, and `MPI_Allreduce`,
`src/mpi/communicator.hpp:198-225`, on more than zero elements -/
def FileState.blocked (s : FileState R β) (r : Fin R) : FileAct β → Prop
  | .leave => ∃ r', FileAct.entered (s.done r') < FileAct.entered (s.done r)
  | _ => False

instance (s : FileState R β) (r : Fin R) (a : FileAct β) : Decidable (s.blocked r a) := by
  cases a <;> unfold FileState.blocked <;> infer_instance

/-- rank `r` has its turn -/
def fileStep (s : FileState R β) (r : Fin R) : FileState R β :=
  match s.todo r with
  | [] => s
  | a :: rest =>
    if s.blocked r a then s
    else
      { file := a.effect s.file
        done := Function.update s.done r (s.done r ++ [a])
        todo := Function.update s.todo r rest }

/-- the ranks have their turns in the order of the schedule -/
def fileRun (s : FileState R β) (sched : List (Fin R)) : FileState R β := sched.foldl fileStep s

section
variable {K : ℕ} {own : Fin K → Fin R} {n b : Fin K → ℕ} {r : Fin R}

/-- operations that a rank cannot leave before all ranks have entered; nothing is assumed about the
calls into the host -/
def Req.isSync : Req own n b r → Bool
  | .reduce _ => true
  | .gather _ => true
  | .gatherW _ => true
  | _ => false

/-- the collective operations of a record as actions -/
def syncActs (log : List (Req own n b r × Reply own n b r)) : List (FileAct β) :=
  log.flatMap fun x => if x.1.isSync then [.enter, .leave] else []

/-- records appended in a list of actions -/
def appended (l : List (FileAct β)) : List β :=
  l.filterMap fun
    | .append x => some x
    | _ => none

/-- The actions of a rank in a run that has ended in the state `w'`. Up to the end of the setup they
are known: nothing if the constructors throw (`src/nlcglib.cpp:232-235`), then `remove` and the
collective operations of `src/nlcglib.cpp:249-278`. Of the loop only the records are used (the file of
`w'`); where they lie between its collective operations is left open. -/
inductive RankActs (ω : ℕ → Reply own n b r) (c : LCfg own n b r) (w w' : NState ℝ (RState own n b r)) :
    List (FileAct (JsonRec ℝ)) → Prop
  | refused : ((rankOps ω c).construct w.s).1 ≠ .ok () → RankActs ω c w w' []
  | failed (s1 : RState own n b r) (o : Res (RPoint own n b r)) (s2 : RState own n b r) :
      (rankOps ω c).construct w.s = (.ok (), s1) → (rankOps ω c).setup s1 = (o, s2) →
      (∀ pt, o ≠ .ok pt) →
      RankActs ω c w w' (.remove :: syncActs (s2.log.drop s1.log.length))
  | ran (s1 : RState own n b r) (pt : RPoint own n b r) (s2 : RState own n b r)
      (post : List (FileAct (JsonRec ℝ))) :
      (rankOps ω c).construct w.s = (.ok (), s1) → (rankOps ω c).setup s1 = (.ok pt, s2) →
      .remove ∉ post → appended post = w'.file →
      RankActs ω c w w' (.remove :: (syncActs (s2.log.drop s1.log.length) ++ post))

end
end Nlcg
