import Verif.Model.DBLock
/-! # Specification vocabulary: the database lock -/
namespace Ddd.Lock

/-- client `l` holds key `k`; `u` is the time stamp of its last successful statement. -/
def Holds (s : State) (l k u : Nat) : Prop := s.pc l = .held k u

/-- client `l` holds `k` and its lease has not run out. -/
def Within (ttl : Nat) (s : State) (l k : Nat) : Prop := ∃ u, Holds s l k u ∧ s.now < u + ttl

/-- The timing assumption: a renewal executes so early that a row read before it can not be found expired any more.  -/
def Timely (ttl : Nat) (pol : Policy) : Prop :=
  ∀ u tn tr te, pol.renewOK u tn → tr ≤ tn → pol.evalOK tr te ∨ te = tn → te < u + ttl

/-- a state of an execution. -/
def Reachable (ttl : Nat) (pol : Policy) (s : State) : Prop := ∃ s0 es, Initial s0 ∧ Exec ttl pol s0 es s

/-- no renewals at all (how `Stage` uses the lock: `Lock` and `UnLock` only, `engine.go:1217-1235`). -/
def noRenewal : Policy := { renewOK := fun _ _ => False, evalOK := fun tr te => tr ≤ te }

/-- renewals execute more than `d` before the lease runs out, where `d` bounds the time between a client reading a row and checking it. -/
def withMargin (ttl d : Nat) : Policy := { renewOK := fun u t => t + d < u + ttl, evalOK := fun tr te => tr ≤ te ∧ te ≤ tr + d }

/-- renewals only need to execute before the lease runs out. -/
def justInTime (ttl : Nat) : Policy := { renewOK := fun u t => t < u + ttl, evalOK := fun tr te => tr ≤ te }

end Ddd.Lock
