import Verif.Model.Kinds
/-!
# One command object in several runs

`Stage.runCommand` stores an agent for the stage in the command object (`engine.go:770-772`, `command.go:104-106`), and `Commit` and `Output` of the object use the stored agent (`command.go:93-102,62-71`). If the
object is given to `Run` again while a run of it is under way (another goroutine, or a command started inside it), the runs share that field. The runs are seen here through these accesses, in the order in which
they happen; what else the runs do is in `Model/Kinds.lean`.
-/
namespace Ddd.SharedCmd

/-- what user code asks of the agent: `Commit`, `Output` (`command.go:93-102`) -/
inductive Ask where
  | commit
  | output (v : Nat)
  deriving DecidableEq, Repr

/-- an access to the command object by run `i`: `SetStage` at the start of the run (`engine.go:770-772`), or a call of `Commit` or `Output` by its user code (`command.go:93-102`) -/
inductive Access where
  | set (run : Nat)
  | ask (run : Nat) (a : Ask)
  deriving DecidableEq, Repr

/-- a call that reached a stage: by whom, which stage, what (`command.go:65-71`) -/
structure Reached where
  caller : Nat
  stage : Nat
  what : Ask
  deriving DecidableEq, Repr

/-- the field `stage` of the command object (`command.go:74-76`; nil before the first `SetStage`), and what happened to the stages -/
structure State where
  agent : Option Nat
  reached : List Reached
  panicked : List Nat
  deriving DecidableEq, Repr

/-- a new command object (`command.go:74-76`) -/
def new : State := { agent := none, reached := [], panicked := [] }

/-- one access: `SetStage` overwrites the field (`command.go:104-106`); a call uses the stage stored at that moment (`command.go:65-71`), with a nil stage it panics -/
def step (s : State) : Access → State
  | .set i => { s with agent := some i }
  | .ask i a =>
    match s.agent with
    | some j => { s with reached := s.reached ++ [⟨i, j, a⟩] }
    | none => { s with panicked := s.panicked ++ [i] }

/-- a history of accesses to the object (`command.go:74-106`) -/
def run (l : List Access) : State := l.foldl step new

/-- the output of the result of run `i` (`setOutput`, `engine.go:1160-1162`): the last `Output` that reached its stage -/
def State.outputOf (s : State) (i : Nat) : Option Nat :=
  (s.reached.filterMap fun r => match r.what with | .output v => if r.stage = i then some v else none | .commit => none).getLast?

end Ddd.SharedCmd
