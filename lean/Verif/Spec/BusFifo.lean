import Verif.Spec.BusSeq
import Verif.Spec.Bus
/-!
# Vocabulary of C104: the events of a FIFO sender in histories of operations that do not overlap
-/
namespace Ddd.Bus

/-- the events of sender `σ` an operation dispatches -/
def Op.sends (σ : Nat) : Op → List DEv
  | .dispatch es _ => es.filter fun e => e.sender == σ
  | _ => []

/-- the events of sender `σ` in the order in which they were handed to `Dispatch` -/
def sentBy (σ : Nat) (ops : List Op) : List DEv := ops.flatMap (Op.sends σ)

/-- the events of sender `σ` that the handler of `svc` returned without error for, in this order (the log is latest first) -/
def handledOf (σ svc : Nat) (log : List Log) : List EvRow :=
  log.reverse.filterMap fun
    | .returned s _ e .ok _ _ => if s = svc ∧ e.ev.sender = σ then some e else none
    | _ => none

/-- `a` was created before `b`: by time, then by the (time ordered) ID -/
def DEv.before (a b : DEv) : Prop := a.created < b.created ∨ (a.created = b.created ∧ a.evId < b.evId)

/-- The circumstances: -/
structure FifoHistory (c : Cfg) (empty : DB) (σ svc : Nat) (ops : List Op) : Prop where
  /-- all events of the sender are FIFO -/
  fifo : ∀ e ∈ sentBy σ ops, e.sendType = .fifo
  /-- they are dispatched in the order of their creation -/
  order : (sentBy σ ops).Pairwise DEv.before
  /-- by dispatches that return nil, after the service was registered -/
  whole : ∀ p es n q, ops = p ++ .dispatch es n :: q → (∃ e ∈ es, e.sender = σ) → svc ∈ (runOps empty p).services ∧ (dispatch (runOps empty p) 0 es n).2 = true
  /-- and not in transactions -/
  plain : ∀ op ∈ ops, (∀ s now timeout es ok, op = .begin s now timeout es ok → ∀ e ∈ es, e.sender ≠ σ) ∧ (∀ tx n, op = .commit tx n → ∀ e ∈ tx.events, e.sender ≠ σ)
  /-- no run of the service takes place when an event of the sender that it has not handled successfully is older than the scan window -/
  window : ∀ p c' now ans q, ops = p ++ .run c' svc now ans :: q → ∀ r ∈ (runOps empty p).recs, r.service = svc → r.status ≠ .success →
    ∀ e ∈ (runOps empty p).events, e.id = r.eventId → e.ev.sender = σ → now ≤ e.ev.created + c.window

end Ddd.Bus
