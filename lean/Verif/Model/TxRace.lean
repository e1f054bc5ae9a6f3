import Mathlib.Data.List.Basic
/-!
# MySQL event bus: transactional messages, statement by statement

Any number of clients (goroutines that hold the context returned by `DispatchBegin`) and any number of instances of any services (each runs `handleTransactions` from its one loop, `eventbus.go:744-761`) work on the same
database. The atomic steps are SQL statements and calls of the checker. A check-back runs inside a database transaction: it locks the rows it selected (`FOR UPDATE NOWAIT`), what it inserts and deletes becomes visible when it
commits, and is undone if the process dies. Only what decides whether the events of a transaction get stored is kept: delivery records are not part of the state (they are in `Model/Bus.lean`).
InnoDB may lock more rows than those selected (there is no index on `service`): that only rules out executions.
Not modelled: a MySQL error that rolls back the whole transaction while the code goes on (deadlock victim).
-/
namespace Ddd.TxRace

/-- `Transaction` (`eventbus/mysql/po.go:87-93`): ID, service and due time; the events are those of the transaction. -/
structure Row where
  id : Nat
  svc : Nat
  due : Nat
  deriving DecidableEq, Repr

/-- Answers of the transaction checker (`event.go:57-63`). -/
inductive Ans where
  | unknown | commit | rollback
  deriving DecidableEq, Repr

/-- Where a call of `Commit` is (`eventbus/mysql/eventbus.go:322-340`): before the look-up; before the insert of the events; while the services are listed and the records inserted; before the row is deleted. -/
inductive Pos where
  | look | insert | recs | delete
  deriving DecidableEq, Repr

/-- A client's `Commit` under way, with the transaction of its context. (`eventbus/mysql/eventbus.go:322-340`.) -/
structure Call where
  tx : Row
  pos : Pos
  deriving DecidableEq, Repr

/-- A `handleTransactions` under way (`eventbus/mysql/eventbus.go:650-666`): the IDs of the rows it locked; the rows not yet done, the first of which is being checked; where the `Commit` of the first one is, if the checker
answered so; the transactions whose events existed when the database transaction read first (the snapshot of `REPEATABLE READ`); the transactions whose events it inserted and the rows it deleted. -/
structure Check where
  locked : List Nat
  todo : List Row
  pos : Option Pos
  snap : Option (List Nat)
  ins : List Nat
  del : List Nat
  deriving DecidableEq, Repr

/-- Who stored the events of a transaction. (Observed at `eventbus/mysql/eventbus.go:273`, called from `333` by a client or by `639`.) -/
inductive Who where
  | client | checkback
  deriving DecidableEq, Repr

/-- What was observable: `DispatchBegin` succeeded; a client calls `Commit`; it returned nil; `Rollback` returned nil; the checker was asked and answered; the events are stored, for everybody to see; a check-back deleted the row, for everybody to see. (`eventbus/mysql/eventbus.go:315,322,339,348,638,273,665`.) -/
inductive Note where
  | begun (tx : Row)
  | commitCalled (t : Nat)
  | commitDone (t : Nat)
  | rolledBack (t : Nat)
  | asked (t : Nat) (a : Ans)
  | stored (t : Nat) (w : Who)
  | settled (t : Nat)
  deriving DecidableEq, Repr

/-- The clock, the table of transactions, the IDs of transactions that have events in the table of events (`trans_id`), the calls under way and the log, latest first. (`eventbus/mysql/po.go:61-95`.) -/
structure State where
  now : Nat
  txs : List Row
  nextTx : Nat
  present : List Nat
  cl : Nat → Option Call
  chk : Nat → Option Check
  log : List Note

/-- `f` changed at `i`. (Auxiliary of the model, no counterpart in `eventbus/mysql/eventbus.go`.) -/
def put {α : Type} (f : Nat → α) (i : Nat) (v : α) : Nat → α := fun j => if j = i then v else f j

/-- A row of the table of transactions is locked by a check-back (`eventbus/mysql/eventbus.go:655`). -/
def State.locked (s : State) (t : Nat) : Prop := ∃ i c, s.chk i = some c ∧ t ∈ c.locked

/-- Assumptions under which a property is proved. (Auxiliary of the model, no counterpart in `eventbus/mysql/eventbus.go`.) -/
structure Pol where
  /-- `Commit` is called at most once with the context of a transaction -/
  once : Bool
  /-- a client inserts the events before the transaction is due -/
  prompt : Bool
  /-- the events of a transaction are not cleaned as long as its row is in the table -/
  keep : Bool
  /-- the database transaction of a check-back reads from a snapshot (`REPEATABLE READ`, the default of MySQL) -/
  snapshot : Bool

/-- Does the look-up of `Commit` inside a check-back find events (`eventbus/mysql/eventbus.go:328`)? It sees its snapshot (or what is stored now) and what it inserted itself. -/
def sees (pol : Pol) (s : State) (c : Check) (t : Nat) : Bool :=
  (if pol.snapshot then c.snap.getD s.present else s.present).contains t || c.ins.contains t

/-- The check-back goes on with the next transaction: after success, after an error, which is only logged (`eventbus/mysql/eventbus.go:640-646`), or because the checker does not know. -/
def Check.next (c : Check) : Check := { c with todo := c.todo.tail, pos := none }

/-- All steps. (One statement of one of the functions of `eventbus/mysql/eventbus.go`, or what happens outside; the lines are with the constructors.) -/
inductive Step (pol : Pol) : State → State → Prop
  | tick (s d) : Step pol s { s with now := s.now + d }
  /-- `DispatchBegin` (`eventbus.go:306-319`); the clock was read at `t0`, before the statement -/
  | begin (s svc t0 timeout) (ht : t0 ≤ s.now) :
      Step pol s { s with txs := s.txs ++ [⟨s.nextTx, svc, t0 + timeout⟩], nextTx := s.nextTx + 1, log := .begun ⟨s.nextTx, svc, t0 + timeout⟩ :: s.log }
  /-- a client calls `Commit` with the context of a transaction (`eventbus.go:322-326`) -/
  | commitCall (s k tx) (hb : .begun tx ∈ s.log) (hk : s.cl k = none) (h1 : pol.once = true → .commitCalled tx.id ∉ s.log) :
      Step pol s { s with cl := put s.cl k (some ⟨tx, .look⟩), log := .commitCalled tx.id :: s.log }
  /-- the look-up finds events: return nil (`eventbus.go:328-331`) -/
  | lookFound (s k tx) (hk : s.cl k = some ⟨tx, .look⟩) (h : tx.id ∈ s.present) : Step pol s { s with cl := put s.cl k none, log := .commitDone tx.id :: s.log }
  /-- the look-up finds nothing (`eventbus.go:332`) -/
  | lookNone (s k tx) (hk : s.cl k = some ⟨tx, .look⟩) (h : tx.id ∉ s.present) : Step pol s { s with cl := put s.cl k (some ⟨tx, .insert⟩) }
  /-- the events are inserted, outside any database transaction (`eventbus.go:273`) -/
  | insert (s k tx) (hk : s.cl k = some ⟨tx, .insert⟩) (hp : pol.prompt = true → s.now ≤ tx.due) :
      Step pol s { s with cl := put s.cl k (some ⟨tx, .recs⟩), present := tx.id :: s.present, log := .stored tx.id .client :: s.log }
  /-- services and records (`eventbus.go:277-297`) -/
  | recs (s k tx) (hk : s.cl k = some ⟨tx, .recs⟩) : Step pol s { s with cl := put s.cl k (some ⟨tx, .delete⟩) }
  /-- the row is deleted, `Commit` returns nil (`eventbus.go:339`); waits for a lock of the row -/
  | delete (s k tx) (hk : s.cl k = some ⟨tx, .delete⟩) (hl : ¬ s.locked tx.id) :
      Step pol s { s with cl := put s.cl k none, txs := s.txs.filter fun r => decide (r.id ≠ tx.id), log := .commitDone tx.id :: s.log }
  /-- an error, or the client's process dies -/
  | clientDrop (s k) : Step pol s { s with cl := put s.cl k none }
  /-- `Rollback` by a client (`eventbus.go:343-349`); waits for a lock of the row -/
  | rollback (s tx) (hb : .begun tx ∈ s.log) (hl : ¬ s.locked tx.id) :
      Step pol s { s with txs := s.txs.filter fun r => decide (r.id ≠ tx.id), log := .rolledBack tx.id :: s.log }
  /-- instance `i` of service `svc` starts a check-back (`eventbus.go:651-659`): it selects and locks all overdue rows of the service, and fails at once if one of them is locked; the clock was read at `t0`, before the statement -/
  | select (s i svc t0) (ht : t0 ≤ s.now) (hi : s.chk i = none) (hl : ∀ r ∈ s.txs, r.svc = svc → r.due < t0 → ¬ s.locked r.id) :
      Step pol s { s with chk := put s.chk i (some ⟨(s.txs.filter fun r => decide (r.svc = svc ∧ r.due < t0)).map Row.id, s.txs.filter fun r => decide (r.svc = svc ∧ r.due < t0), none, none, [], []⟩) }
  /-- the checker is asked about the next row (`eventbus.go:636-638`) and does not know -/
  | askUnknown (s i c r rest) (hi : s.chk i = some c) (ht : c.todo = r :: rest) (hp : c.pos = none) :
      Step pol s { s with chk := put s.chk i (some c.next), log := .asked r.id .unknown :: s.log }
  /-- the checker answers commit: `Commit` is called (`eventbus.go:639-640`) -/
  | askCommit (s i c r rest) (hi : s.chk i = some c) (ht : c.todo = r :: rest) (hp : c.pos = none) :
      Step pol s { s with chk := put s.chk i (some { c with pos := some .look }), log := .asked r.id .commit :: s.log }
  /-- the checker answers rollback: the row is deleted in the transaction of the check-back (`eventbus.go:643-644,348`) -/
  | askRollback (s i c r rest) (hi : s.chk i = some c) (ht : c.todo = r :: rest) (hp : c.pos = none) :
      Step pol s { s with chk := put s.chk i (some { c.next with del := r.id :: c.del }), log := .asked r.id .rollback :: s.log }
  /-- the checker answers rollback, and the delete fails: only logged (`eventbus.go:644-646`) -/
  | askRollbackErr (s i c r rest) (hi : s.chk i = some c) (ht : c.todo = r :: rest) (hp : c.pos = none) :
      Step pol s { s with chk := put s.chk i (some c.next), log := .asked r.id .rollback :: s.log }
  /-- the look-up of the check-back finds events: nothing more happens with this row (`eventbus.go:328-331`); the first look-up fixes the snapshot -/
  | chkFound (s i c r rest) (hi : s.chk i = some c) (ht : c.todo = r :: rest) (hp : c.pos = some .look) (h : sees pol s c r.id = true) :
      Step pol s { s with chk := put s.chk i (some { c.next with snap := some (c.snap.getD s.present) }) }
  /-- the look-up of the check-back finds nothing (`eventbus.go:332`) -/
  | chkNone (s i c r rest) (hi : s.chk i = some c) (ht : c.todo = r :: rest) (hp : c.pos = some .look) (h : sees pol s c r.id = false) :
      Step pol s { s with chk := put s.chk i (some { c with pos := some .insert, snap := some (c.snap.getD s.present) }) }
  /-- the check-back inserts the events in its transaction (`eventbus.go:273`) -/
  | chkInsert (s i c r rest) (hi : s.chk i = some c) (ht : c.todo = r :: rest) (hp : c.pos = some .insert) :
      Step pol s { s with chk := put s.chk i (some { c with pos := some .recs, ins := r.id :: c.ins }) }
  /-- services and records (`eventbus.go:277-297`) -/
  | chkRecs (s i c r rest) (hi : s.chk i = some c) (ht : c.todo = r :: rest) (hp : c.pos = some .recs) :
      Step pol s { s with chk := put s.chk i (some { c with pos := some .delete }) }
  /-- the check-back deletes the row in its transaction (`eventbus.go:339`) -/
  | chkDelete (s i c r rest) (hi : s.chk i = some c) (ht : c.todo = r :: rest) (hp : c.pos = some .delete) :
      Step pol s { s with chk := put s.chk i (some { c.next with del := r.id :: c.del }) }
  /-- an error in the `Commit` of a check-back: only logged (`eventbus.go:640-642`) -/
  | chkError (s i c) (hi : s.chk i = some c) (hp : c.pos ≠ none) : Step pol s { s with chk := put s.chk i (some c.next) }
  /-- the database transaction of the check-back commits (`eventbus.go:664-665`): what it did is visible, the locks are released -/
  | chkEnd (s i c) (hi : s.chk i = some c) (ht : c.todo = []) :
      Step pol s { s with chk := put s.chk i none, present := c.ins ++ s.present, txs := s.txs.filter (fun r => decide (r.id ∉ c.del)), log := c.del.map .settled ++ (c.ins.map (fun t => .stored t .checkback) ++ s.log) }
  /-- the process dies, the commit fails or the checker panics: the transaction is rolled back -/
  | chkDie (s i) : Step pol s { s with chk := put s.chk i none }
  /-- the events of a transaction are handled everywhere and cleaned (`eventbus.go:669-743`) -/
  | clean (s t) (hk : pol.keep = true → ∀ r ∈ s.txs, r.id ≠ t) : Step pol s { s with present := s.present.filter fun x => decide (x ≠ t) }

/-- The start: empty tables, nothing under way. (`eventbus/mysql/eventbus.go`: before any call.) -/
def State.init : State := ⟨0, [], 1, [], fun _ => none, fun _ => none, []⟩

/-- States that can occur. (Auxiliary of the model, executions of `eventbus/mysql/eventbus.go`.) -/
inductive Reachable (pol : Pol) : State → Prop
  | init : Reachable pol .init
  | step {s s'} : Reachable pol s → Step pol s s' → Reachable pol s'

end Ddd.TxRace
