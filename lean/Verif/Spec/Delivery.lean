import Verif.Spec.Trace
import Verif.Spec.Bus
/-!
# Vocabulary for the journey of transactional events from a command to the tables of the MySQL bus (C92)
-/
namespace Ddd.Spec
open Bus

/-- the stored events that belong to the transaction `tid` of the bus -/
def storedOf (db : DB) (tid : Nat) : List EvRow := db.events.filter fun e => decide (e.transId = tid)

/-- One command and the tables of the bus: the calls made so far, the tables, the transaction row the command stored (if any), whether the command holds a context with it, and
whether the process of the command is still alive. -/
structure BusWorld where
  done : Trace
  db : DB
  row : Option TxRow
  held : Bool
  alive : Bool

/-- What a call of the command does to the tables. A call that reports an error may have done its work (the answer was lost) or nothing. `Commit` of the bus is undivided here: all of its
statements are executed or none of them. `n` is the number of statements that succeed. -/
inductive BusEffect (conv : Event → DEv) (svc timeout : Nat) (w : BusWorld) : Call → BusWorld → Prop
  | begun (es : List Event) (now : Nat) (db' : DB) (tx : TxRow) : dispatchBegin w.db svc now timeout (es.map conv) true = (db', some tx) →
      BusEffect conv svc timeout w (.dispatchBegin es .ok) { w with db := db', row := some tx, held := true }
  | begunUnheard (es : List Event) (st : Stat) (now : Nat) (db' : DB) (tx : TxRow) : st ≠ .ok → dispatchBegin w.db svc now timeout (es.map conv) true = (db', some tx) →
      BusEffect conv svc timeout w (.dispatchBegin es st) { w with db := db', row := some tx }
  | notBegun (es : List Event) (st : Stat) : st ≠ .ok → BusEffect conv svc timeout w (.dispatchBegin es st) w
  | committed (tx : TxRow) (n : Nat) (db' : DB) : w.row = some tx → w.held = true → Bus.commit w.db tx n = (db', true) →
      BusEffect conv svc timeout w (.busCommit .ok) { w with db := db' }
  | commitUnheard (tx : TxRow) (st : Stat) (n : Nat) : w.row = some tx → w.held = true → st ≠ .ok → n ≤ 1 ∨ 4 + w.db.services.length ≤ n →
      BusEffect conv svc timeout w (.busCommit st) { w with db := (Bus.commit w.db tx n).1 }
  | rolledBack (tx : TxRow) (st : Stat) (ok : Bool) : w.row = some tx → w.held = true → (st = .ok → ok = true) →
      BusEffect conv svc timeout w (.busRollback st) { w with db := (Bus.rollback w.db tx ok).1 }
  | noContext (x : Call) (st : Stat) : w.held = false → x = .busCommit st ∨ x = .busRollback st → st ≠ .ok → BusEffect conv svc timeout w x w
  | elsewhere (x : Call) : (∀ es st, x ≠ .dispatchBegin es st) → (∀ st, x ≠ .busCommit st ∧ x ≠ .busRollback st) → BusEffect conv svc timeout w x w

/-- What anybody else may do to the tables at any time. `fate`: does the database transaction of the command become durable? The checker of the service is honest: it says commit only when the
transaction is durable, and rollback only when it will never be; it may say that it does not know. Nobody else has the context of the command. While the process of the command lives its events are
not old enough to be cleaned. -/
def Others (fate : Bool) (w : BusWorld) (o : Bus.Op) : Prop :=
  ∀ tx, w.row = some tx → match o with
    | .commit t _ => t.id ≠ tx.id
    | .rollback t _ => t.id ≠ tx.id
    | .check ask _ _ ns => (∀ i, ns i ≤ 1 ∨ 4 + w.db.services.length ≤ ns i) ∧ ∀ e, tx.events.head? = some e →
        (ask e = .commit → fate = true ∧ ∃ st, Call.commit st ∈ w.done) ∧ (ask e = .rollback → fate = false)
    | .clean .. => w.alive = true → storedOf (o.apply w.db) tx.id = storedOf w.db tx.id
    | _ => True

/-- A story: calls of the command, operations of others in between and after, and the death of the process at any time. The list holds the tables before and after every step. -/
inductive Story (conv : Event → DEv) (svc timeout : Nat) (fate : Bool) (w0 : BusWorld) : List (DB × DB) → BusWorld → Prop
  | start : Story conv svc timeout fate w0 [] w0
  | call {H : List (DB × DB)} {w w' : BusWorld} {x : Call} : Story conv svc timeout fate w0 H w → w.alive = true → BusEffect conv svc timeout w x w' →
      Story conv svc timeout fate w0 (H ++ [(w.db, w'.db)]) { w' with done := w.done ++ [x] }
  | other {H : List (DB × DB)} {w : BusWorld} {o : Bus.Op} : Story conv svc timeout fate w0 H w → Others fate w o →
      Story conv svc timeout fate w0 (H ++ [(w.db, o.apply w.db)]) { w with db := o.apply w.db }
  | dies {H : List (DB × DB)} {w : BusWorld} : Story conv svc timeout fate w0 H w → Story conv svc timeout fate w0 H { w with alive := false }

/-- the beginning: no call was made -/
def BusWorld.before (db : DB) : BusWorld := ⟨[], db, none, false, true⟩

/-- `fate` is what became of the database transaction of a command which made the calls `P`: the content `d` is the old one and no commit succeeded, or all writes of `T` are in it and commit was called. -/
def Decided {D : Type} (apply : Action → D → D) (S0 : D) (T P : Trace) (d : D) : Bool → Prop
  | false => d = S0 ∧ Call.commit .ok ∉ P
  | true => Writes apply S0 T d ∧ ∃ st, Call.commit st ∈ P

/-- a step that stores no event of the transaction -/
def StoresNothing (tid : Nat) (s : DB × DB) : Prop := (storedOf s.2 tid).Sublist (storedOf s.1 tid)

/-- a step that stores all events of the transaction, in order, each with one delivery record, to be delivered, for every service registered at that time -/
def StoresAll (tx : TxRow) (s : DB × DB) : Prop :=
  storedOf s.1 tx.id = [] ∧ (storedOf s.2 tx.id).map EvRow.ev = tx.events ∧
  ∀ p ∈ storedOf s.2 tx.id, ∀ v ∈ s.1.services, (s.2.recs.countP fun r => decide (r.service = v ∧ r.eventId = p.id)) = 1 ∧ Pending s.2 v p.id

/-- exactly one step stored the events, all of them at once -/
def StoredOnce (tx : TxRow) (H : List (DB × DB)) : Prop :=
  ∃ H1 s H2, H = H1 ++ s :: H2 ∧ (∀ s ∈ H1, StoresNothing tx.id s) ∧ StoresAll tx s ∧ ∀ s ∈ H2, StoresNothing tx.id s

/-- no step ever showed an event of the transaction -/
def NeverStored (tid : Nat) (H : List (DB × DB)) : Prop := ∀ s ∈ H, storedOf s.1 tid = [] ∧ storedOf s.2 tid = []

end Ddd.Spec
