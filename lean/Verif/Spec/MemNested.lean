import Verif.Spec.MemBus
import Verif.Model.MemNested
/-! # Vocabulary: a memory bus that has come to a standstill -/
namespace Ddd.MemBus

variable {E : Type}

/-- The number of events given to `Dispatch` so far. -/
def offered : List (Log E) → Nat
  | [] => 0
  | .dispatched _ es :: log => es.length + offered log
  | _ :: log => offered log

/-- Any continuation of an execution. -/
inductive NSteps [DecidableEq E] (cap : Nat) : NState E → NState E → Prop
  | refl (s) : NSteps cap s s
  | step {s t u} : NSteps cap s t → NStep cap t u → NSteps cap s u

/-- Nothing is ever handled any more, whatever anybody does. -/
def Standstill [DecidableEq E] (cap : Nat) (s : NState E) : Prop := ∀ t, NSteps cap s t → handled t.bus.log = handled s.bus.log

end Ddd.MemBus
