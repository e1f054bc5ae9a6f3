import Verif.Spec.Trace
/-!
# Specification vocabulary: several commands at once

What several commands do is one list of calls, each with the number of the command making it, in the order in which they happen.
-/
namespace Ddd.Spec
open Ddd

/-- the calls of all commands, in the order in which they happen. -/
abbrev World := List (Nat × Call)

/-- what command `i` does. -/
def World.of (g : World) (i : Nat) : Trace := (g.filter (·.1 = i)).map (·.2)

/-- after `g`, command `i` holds key `k`: its `Lock` succeeded and it has not called `UnLock` since (whatever `UnLock` returned). -/
def HoldsKey (g : World) (i k : Nat) : Prop :=
  ∃ a b, g = a ++ (i, Call.lock k .ok) :: b ∧ ∀ st, (i, Call.unlock k st) ∉ b

/-- the locker is exclusive: it never grants a key that another command holds. -/
def Exclusive (g : World) : Prop :=
  ∀ a b i j k, g = a ++ (i, Call.lock k .ok) :: b → HoldsKey a j k → i = j

/-- the calls of a command that matter: everything but `Lock`, `UnLock` and the PostSave hooks. -/
def matters : Call → Bool
  | .lock .. => false
  | .unlock .. => false
  | .postSave .. => false
  | _ => true

/-- the calls that matter, of all commands. -/
def World.work (g : World) : World := g.filter fun x => matters x.2

/-- the commands run one after the other: there is an order of the commands in which the work of each is one uninterrupted block. -/
def OneAfterTheOther (g : World) : Prop := ∃ order : List Nat, order.Nodup ∧ g.work = order.flatMap fun i => g.work.filter (·.1 = i)

end Ddd.Spec
