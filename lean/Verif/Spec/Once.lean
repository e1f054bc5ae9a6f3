import Verif.Spec.Consumer
import Verif.Spec.BusLTS
/-!
# Specification vocabulary: handler commands behind the MySQL event bus
-/
namespace Ddd.Consumer
open Spec
open Router (Reg)

/-- The handler commands run so far, earliest first; `ps` are the deliveries, latest first: row ID of the event, and the handler runs. -/
def past (ps : List (Nat × List Done)) : List Done := ps.reverse.flatMap (·.2)

/-- the callback's outcome as the bus sees it -/
def SameOutcome : Router.Ret → Bus.Ret → Prop
  | .nil, .ok => True
  | .err _, .err => True
  | .panic, .panic => True
  | _, _ => False

/-- The log of the bus (latest first) with the handler runs behind it: each return of the callback of service `svc` is that of a delivery to the handlers in `r`. `conv` is the `DomainEvent` the bus makes of a row.
Deliveries overlapping in time are ordered by their returns; what a command sees of the others is up to its environment, which is arbitrary. -/
inductive Plays (w : World) (r : Reg) (conv : Bus.EvRow → Router.Event) (svc : Nat) : List Bus.Log → List (Nat × List Done) → Prop
  | nil : Plays w r conv svc [] []
  | delivery {log ps eid e ret t b ds out} : Plays w r conv svc log ps → deliver w r (past ps) (conv e) = (out, past ps ++ ds) → SameOutcome out ret →
      Plays w r conv svc (.returned svc eid e ret t b :: log) ((eid, ds) :: ps)
  | other {log ps x} : Plays w r conv svc log ps → (∀ eid e ret t b, x ≠ .returned svc eid e ret t b) → Plays w r conv svc (x :: log) ps

/-- the handler runs of the deliveries of event row `eid` -/
def runsFor (ps : List (Nat × List Done)) (eid : Nat) : List Done := (ps.filter fun p => p.1 = eid).flatMap (·.2)

/-- how many handler commands committed for event row `eid` -/
def commits (ps : List (Nat × List Done)) (eid : Nat) : Nat := (runsFor ps eid).countP Done.committed

/-- no command panicked after it had committed (in a PostSave hook, while unlocking or while committing on the bus) -/
def NoLatePanic (ds : List Done) : Prop := ∀ d ∈ ds, d.committed = true → d.ret ≠ .panic

end Ddd.Consumer
