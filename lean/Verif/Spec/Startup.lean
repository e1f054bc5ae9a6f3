import Verif.Model.Startup
import Verif.Spec.Router
import Verif.Spec.Bus
import Verif.Spec.BusMsg
/-!
# Vocabulary of C116
-/
namespace Ddd.Startup
open Bus Router

/-- at every tick of the history the engine exists and exactly the registrations of `prog` have been made -/
def ReadyAtTicks (env : Env) (p : Proc) (prog : List RegCall) (acts : List Act) : Prop :=
  ∀ pre now ns post, acts = pre ++ .tick now ns :: post → (play env p pre).alive = true → (play env p pre).engine = true ∧ (play env p pre).hist = prog

/-- other processes do anything but passes of the service -/
def Alone (svc : Nat) : Act → Prop
  | .op o => BusMsg.NotRun svc o
  | _ => True

/-- `cs` are calls of all the handlers `fs` with the event, in order, and each returned nil -/
def AllHandled (w : World) (e : Event) (fs : List (Fn × Nat)) (cs : List Call) : Prop :=
  cs.length = fs.length ∧ ∀ i f ty, fs[i]? = some (f, ty) → ∃ a, cs[i]? = some ⟨f.ident, a⟩ ∧ Given w e ty a ∧ w.answer (cs.take i) ⟨f.ident, a⟩ = .nil

end Ddd.Startup
