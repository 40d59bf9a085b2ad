import Verif.Model.StepRace

/-!
# The file `nlcg.json` while several groups of processes run

The name of the file is fixed (`src/nlcglib.cpp:111`, `247`, `src/utils/step_logger.hpp:45`), and the process that writes it
is rank 0 of the communicator of the k-points (`src/nlcglib.cpp:111`), not of all processes. If the wave functions are
distributed, or if several calculations run in one job, there are several such communicators. Collective operations hold
up the ranks of one of them only.
-/

namespace Nlcg

/-- `FileState` for `G` groups with `R` ranks each -/
structure GroupState (G R : ℕ) (β : Type) where
  file : List β
  done : Fin G → Fin R → List (FileAct β)
  todo : Fin G → Fin R → List (FileAct β)

variable {G R : ℕ} {β : Type}

/-- what a group sees -/
def GroupState.group (s : GroupState G R β) (g : Fin G) : FileState R β := ⟨s.file, s.done g, s.todo g⟩

/-- rank `x.2` of group `x.1` has its turn: `src/nlcglib.cpp:247`, `src/utils/step_logger.hpp:42-49` and the collective
operations of that group -/
def groupStep (s : GroupState G R β) (x : Fin G × Fin R) : GroupState G R β :=
  let t := fileStep (s.group x.1) x.2
  { file := t.file
    done := Function.update s.done x.1 t.done
    todo := Function.update s.todo x.1 t.todo }

/-- the processes have their turns in the order of the schedule -/
def groupRun (s : GroupState G R β) (sched : List (Fin G × Fin R)) : GroupState G R β := sched.foldl groupStep s

end Nlcg
