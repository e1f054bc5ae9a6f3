import Verif.Model.Redis
import Verif.Model.DBLock
import Verif.Spec.Serial
/-! # Specification vocabulary: the Redis lock -/
namespace Ddd.Redis

/-- a state of an execution. -/
def Reachable (ttl : Nat) (s : State) : Prop := ∃ s0 es, Initial s0 ∧ Exec ttl s0 es s

/-- `l` holds `k` (its `Lock` returned a lock, set at `u`, and `UnLock` was not called yet). -/
def Holds (s : State) (l k u : Nat) : Prop := s.pc l = .held k u

/-- `l` holds `k` and its lease has not run out. -/
def Within (ttl : Nat) (s : State) (l k : Nat) : Prop := ∃ u, Holds s l k u ∧ s.now < u + ttl

/-- nobody holds a lock beyond its lease. -/
def InTime (ttl : Nat) (s : State) : Prop := ∀ l k u, Holds s l k u → s.now < u + ttl

/-- an execution in which nobody ever holds a lock beyond its lease. -/
inductive Timed (ttl : Nat) : State → List Ev → State → Prop
  | nil {s : State} : InTime ttl s → Timed ttl s [] s
  | snoc {s s1 s2 : State} {es : List Ev} {e : Ev} : Timed ttl s es s1 → Step ttl s1 e s2 → InTime ttl s2 → Timed ttl s (es ++ [e]) s2

/-- The calls of the engine to the locker that an event stands for: attempt `l` is made by command `owner l` for key `key l`. -/
def calls (owner key : Nat → Nat) : Ev → Spec.World
  | .obtained l => [(owner l, .lock (key l) .ok)]
  | .refused l => [(owner l, .lock (key l) .err)]
  | .gaveUp l => [(owner l, .lock (key l) .err)]
  | .lockFailed l => [(owner l, .lock (key l) .err)]
  | .released l => [(owner l, .unlock (key l) .ok)]
  | .releaseRefused l => [(owner l, .unlock (key l) .err)]
  | .unlockFailed l => [(owner l, .unlock (key l) .err)]
  | _ => []

end Ddd.Redis
