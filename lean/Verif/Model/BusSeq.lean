import Verif.Model.BusLTS
/-!
# MySQL event bus: what is observable of a history of operations that do not overlap

`Model/Bus.lean` gives the effect of each operation on the database; here is what it adds to the log of `Model/BusLTS.lean` (latest first): the delivery records stored and the calls of handlers.
-/
namespace Ddd.Bus

/-- handler calls of `handleEvent` (`eventbus/mysql/eventbus.go:549-601`). -/
def handleLog (c : Cfg) (db : DB) (svc start now : Nat) (t : Tuple) (ans : DEv → Ret) : List Log :=
  match (handle c db svc start now t ans).2 with
  | none => []
  | some x => [.returned svc t.r.eventId t.e (ans x) now true, .called svc t.r.eventId t.e now]

/-- handler calls of a loop over scanned tuples (`eventbus/mysql/eventbus.go:461-485`). -/
def handleAllLog (c : Cfg) (svc start now : Nat) (ans : Nat → DEv → Ret) : Nat → List Tuple → DB → List Log
  | _, [], _ => []
  | i, t :: ts, db => handleAllLog c svc start now ans (i + 1) ts (handle c db svc start now t (ans i)).1 ++ handleLog c db svc start now t (ans i)

/-- handler calls of a run (`eventbus/mysql/eventbus.go:603-633`). -/
def runLog (c : Cfg) (svc now : Nat) (ans : Nat → DEv → Ret) (db : DB) : List Log :=
  match scanStart db c.window now with
  | none => []
  | some start => handleAllLog c svc start now ans 0 (scan db svc c.limit start now) db

/-- records stored service by service (`eventbus/mysql/eventbus.go:281-296`). -/
def recsLog (ps : List EvRow) : List Nat → List Log
  | [] => []
  | s :: ss => recsLog ps ss ++ ps.map fun p => .stored s p.id

/-- records stored by a `Dispatch` of which `n` statements succeed (`eventbus/mysql/eventbus.go:256-298`). -/
def dispatchLog (db : DB) (tid : Nat) (es : List DEv) (n : Nat) : List Log :=
  if es = [] then [] else
  match n with
  | 0 => []
  | 1 => []
  | n + 2 => recsLog (newEvents db.nextEv tid es) (db.services.take n)

/-- records stored by a `Commit` of which `n` statements succeed (`eventbus/mysql/eventbus.go:322-340`). -/
def commitLog (db : DB) (tx : TxRow) (n : Nat) : List Log :=
  match n with
  | 0 => []
  | n + 1 => if commitLook db tx then [] else dispatchLog db tx.id tx.events n

/-- records stored by `checkTX` (`eventbus/mysql/eventbus.go:635-648`). -/
def checkLog (ask : DEv → TxAns) (db : DB) (tx : TxRow) (n : Nat) : List Log :=
  match tx.events with
  | [] => []
  | e :: _ =>
    match ask e with
    | .unknown => []
    | .commit => commitLog db tx n
    | .rollback => []

/-- records stored by the checks of `handleTransactions` (`eventbus/mysql/eventbus.go:650-666`). -/
def checksLog (ask : DEv → TxAns) (ns : Nat → Nat) : List TxRow → DB → List Log
  | [], _ => []
  | t :: ts, db => checksLog ask ns ts (checkTx ask db t (ns t.id)) ++ checkLog ask db t (ns t.id)

/-- what an operation adds to the log (`eventbus/mysql/eventbus.go:256-298,306-349,603-743`). -/
def Op.log (db : DB) : Op → List Log
  | .dispatch es n => dispatchLog db 0 es n
  | .begin .. => []
  | .commit tx n => if tx.id < db.nextTx then commitLog db tx n else []
  | .rollback .. => []
  | .check ask svc now ns => checksLog ask ns (db.txs.filter fun t => t.service == svc && decide (t.due < now)) db
  | .register _ => []
  | .run c svc now ans => runLog c svc now ans db
  | .clean .. => []

/-- the log of a history, latest first (Auxiliary of the model, sequences of the entry points of `eventbus/mysql/eventbus.go`). -/
def opsLog (db : DB) : List Op → List Log
  | [] => []
  | op :: ops => opsLog (op.apply db) ops ++ op.log db

end Ddd.Bus
