import Verif.Model.MemBus
/-!
# Vocabulary for the memory event bus
-/
namespace Ddd.MemBus

variable {E : Type}

/-- what entered the channel, oldest first, with the call it belongs to -/
def sent (log : List (Log E)) : List (Nat × E) :=
  (log.filterMap fun | .sent n e => some (n, e) | _ => none).reverse

/-- what the callback was called with, in order -/
def handled (log : List (Log E)) : List (Nat × E) :=
  (log.filterMap fun | .handled n e => some (n, e) | _ => none).reverse

/-- the events of one call of `Dispatch`, in the order of `l` -/
def ofCall (n : Nat) (l : List (Nat × E)) : List E := (l.filter fun x => x.1 == n).map Prod.snd

/-- the events given to call number `n` of `Dispatch` -/
def given (log : List (Log E)) (n : Nat) (es : List E) : Prop := .dispatched n es ∈ log

end Ddd.MemBus
