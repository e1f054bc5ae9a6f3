import Verif.Model.BusLTS
import Verif.Spec.Bus
/-!
# Vocabulary for the properties of the MySQL event bus under all interleavings
-/
namespace Ddd.Bus

/-- the handler of service `svc` returned without error for event `eid`, which it was called with -/
def Log.isOk (svc eid : Nat) : Log → Bool
  | .returned s i e r _ _ => decide (s = svc ∧ i = eid ∧ e.id = eid ∧ r = .ok)
  | _ => false

/-- the handler of service `svc` failed (error or panic) for the delivery record of event `eid` -/
def Log.isFail (svc eid : Nat) : Log → Bool
  | .returned s i _ r _ _ => decide (s = svc ∧ i = eid ∧ r ≠ .ok)
  | _ => false

/-- somewhere in the past the handler succeeded -/
def HandledOk (log : List Log) (svc eid : Nat) : Prop := ∃ x ∈ log, x.isOk svc eid = true

/-- number of failed calls so far -/
def failures (log : List Log) (svc eid : Nat) : Nat := log.countP (Log.isFail svc eid)

/-- the handler of `svc` was called for the delivery record of event `eid` -/
def Log.isCall (svc eid : Nat) : Log → Bool
  | .called s i _ _ => decide (s = svc ∧ i = eid)
  | _ => false

/-- the handler of `svc` returned without error for the delivery record of event `eid` -/
def Log.isDone (svc eid : Nat) : Log → Bool
  | .returned s i _ r _ _ => decide (s = svc ∧ i = eid ∧ r = .ok)
  | _ => false

/-- number of calls so far -/
def calls (log : List Log) (svc eid : Nat) : Nat := log.countP (Log.isCall svc eid)

/-- number of successful calls so far -/
def successes (log : List Log) (svc eid : Nat) : Nat := log.countP (Log.isDone svc eid)

/-- what can happen from a state on -/
inductive Steps (c : Cfg) (pol : Pol) : State → State → Prop
  | refl (s) : Steps c pol s s
  | step {a b d} : Steps c pol a b → Step c pol b d → Steps c pol a d

/-- `Dispatch` of `es` (in transaction `tid`, or 0) begins in `s`: the state after its first statement, and the rows it has stored. -/
def Begins (s : State) (tid : Nat) (es : List DEv) (s1 : State) (ps : List EvRow) : Prop :=
  es ≠ [] ∧ ps = newEvents s.db.nextEv tid es ∧ s1 = { s with db := insertEvents s.db tid es, disps := .inserted ps :: s.disps }

/-- the `Dispatch` that stored `ps` has no services left to do: it returns nil. -/
def ReturnsNil (s : State) (ps : List EvRow) : Prop := Disp.listed ps [] ∈ s.disps

/-- a strategy counts its retries one by one, as all built-in ones do -/
def Counting (st : Strategy) : Prop := ∀ count now c t, st count now = some (c, t) → c = count + 1

/-- after `n` failures the strategy allows no retry -/
def GivesUp (st : Strategy) (n : Nat) : Prop := ∃ count now, count < n ∧ st count now = none

/-- `st` puts the `n`-th retry (counted from 0) at least `d n` after the failure -/
def WaitsAtLeast (st : Strategy) (d : Nat → Nat) : Prop := ∀ n now c t, st n now = some (c, t) → now + d n ≤ t

/-- `t2` is late enough after each failed and recorded call in `log`: after the one with `n` failures before it, at least `d n` later -/
def LateEnough (d : Nat → Nat) (log : List Log) (svc eid t2 : Nat) : Prop :=
  ∀ l1 l2 e ret t1, log = l1 ++ .returned svc eid e ret t1 true :: l2 → ret ≠ .ok → t1 + d (failures l2 svc eid) ≤ t2

/-- `a` was created before `b`: by time, then by the (time ordered) event ID -/
def Before (a b : EvRow) : Prop := a.ev.created < b.ev.created ∨ (a.ev.created = b.ev.created ∧ a.ev.evId < b.ev.evId)

/-- The circumstances under which the events of sender `σ` are handled in order by service `svc`: -/
structure InOrder (σ svc : Nat) (s : State) : Prop where
  /-- all events of the sender are FIFO -/
  fifo : ∀ e ∈ s.db.events, e.ev.sender = σ → e.ev.sendType = .fifo
  /-- they are stored in the order of their creation -/
  created : ∀ a ∈ s.db.events, ∀ b ∈ s.db.events, a.ev.sender = σ → b.ev.sender = σ → a.id < b.id → Before a b
  /-- the delivery records are stored in this order, too: dispatches of the sender do not overlap and are not interrupted, and the service was registered before -/
  recorded : ∀ a ∈ s.db.events, ∀ b ∈ s.db.events, a.ev.sender = σ → b.ev.sender = σ → a.id < b.id → .stored svc b.id ∈ s.log → .stored svc a.id ∈ s.log
  /-- an event of the sender does not fall out of the scan window before it is handled -/
  window : ∀ j ∈ s.pend, j.svc = svc → ∀ e ∈ s.db.events, e.ev.sender = σ → e.id < j.start → HandledOk s.log svc e.id
  /-- events of stored records of the service are still there (no cleaning during a dispatch) -/
  kept : ∀ r ∈ s.db.recs, r.service = svc → ∃ e ∈ s.db.events, e.id = r.eventId

/-- States that occur under these circumstances. -/
inductive OrderedReachable (c : Cfg) (pol : Pol) (σ svc : Nat) : State → Prop
  | init : OrderedReachable c pol σ svc .init
  | step {s s'} : OrderedReachable c pol σ svc s → Step c pol s s' → InOrder σ svc s' → OrderedReachable c pol σ svc s'

end Ddd.Bus
