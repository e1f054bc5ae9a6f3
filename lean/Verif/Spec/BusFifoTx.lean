import Verif.Spec.BusFifo
/-!
# Vocabulary of C124: the events of a FIFO sender in the order in which they come into the event table

By whatever way: `Dispatch`, `Commit` after `DispatchBegin`, or the check-back of a transaction whose client is gone.
-/
namespace Ddd.Bus

/-- the rows of events of sender `σ` that are in the event table `db'` but were not in `db` -/
def newOf (σ : Nat) (db db' : DB) : List EvRow := db'.events.filter fun e => e.ev.sender == σ && !(db.events.contains e)

/-- the rows of events of sender `σ`, in the order in which the operations of a history put them into the event table -/
def storedOrder (σ : Nat) : DB → List Op → List EvRow
  | _, [] => []
  | db, op :: ops => newOf σ db (op.apply db) ++ storedOrder σ (op.apply db) ops

/-- The circumstances: -/
structure FifoStored (c : Cfg) (empty : DB) (σ svc : Nat) (ops : List Op) : Prop where
  /-- all events of the sender are FIFO -/
  fifo : ∀ a ∈ storedOrder σ empty ops, a.ev.sendType = .fifo
  /-- they come into the event table in the order of their creation -/
  order : (storedOrder σ empty ops).Pairwise fun a b => a.ev.before b.ev
  /-- by operations that get as far as recording them for the service -/
  whole : ∀ p op q, ops = p ++ op :: q → ∀ e ∈ newOf σ (runOps empty p) (op.apply (runOps empty p)), ∃ r ∈ (op.apply (runOps empty p)).recs, r.service = svc ∧ r.eventId = e.id
  /-- no run of the service takes place when an event of the sender that it has not handled successfully is older than the scan window -/
  window : ∀ p c' now ans q, ops = p ++ .run c' svc now ans :: q → ∀ r ∈ (runOps empty p).recs, r.service = svc → r.status ≠ .success →
    ∀ e ∈ (runOps empty p).events, e.id = r.eventId → e.ev.sender = σ → now ≤ e.ev.created + c.window

end Ddd.Bus
