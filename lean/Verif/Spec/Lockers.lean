import Verif.Spec.DBLock
import Verif.Spec.Serial
/-! # Specification vocabulary: commands and the lockers they use -/
namespace Ddd.Spec

/-- the calls to the locker. -/
def World.locking (g : World) : World := g.filter fun x => x.2 matches .lock .. | .unlock ..

end Ddd.Spec

namespace Ddd.Lock

/-- The calls of the engine to the locker that an event of the database lock stands for. One call of `Lock` makes several attempts (`sql.go:76-88`): attempt `l` is made for command `owner l` and key
`key l`; `last l` says that it is not repeated when it is refused. -/
def calls (owner key : Nat → Nat) (last : Nat → Bool) : Ev → Spec.World
  | .obtained l => [(owner l, .lock (key l) .ok)]
  | .refused l => if last l then [(owner l, .lock (key l) .err)] else []
  | .failed l => [(owner l, .lock (key l) .err)]
  | .released l => [(owner l, .unlock (key l) .ok)]
  | .releaseRefused l => [(owner l, .unlock (key l) .err)]
  | .unlockFailed l => [(owner l, .unlock (key l) .err)]
  | _ => []

/-- nobody holds a lock beyond its lease. -/
def InTime (ttl : Nat) (s : State) : Prop := ∀ l k u, Holds s l k u → s.now < u + ttl

/-- an execution in which nobody ever holds a lock beyond its lease. -/
inductive Timed (ttl : Nat) (pol : Policy) : State → List Ev → State → Prop
  | nil {s : State} : InTime ttl s → Timed ttl pol s [] s
  | snoc {s s1 s2 : State} {es : List Ev} {e : Ev} : Timed ttl pol s es s1 → Step ttl pol s1 e s2 → InTime ttl s2 → Timed ttl pol s (es ++ [e]) s2

end Ddd.Lock
