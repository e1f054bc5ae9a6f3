import Verif.Model.Bus
/-!
# MySQL event bus: what is written about a failure

`Model/Bus.lean` assumes that saving a delivery record works and that the retry strategy returns. Here the message of a failure (`failed_message`, column type `text`, `eventbus/mysql/po.go:150,170`) and panics of the user's strategy are modelled.
One consumer (`ConsumeConcurrent` 1, the default) and no interference during a pass.
-/
namespace Ddd.BusMsg
open Bus

/-- What depends on configuration and database. `next`: the method `Next` of the strategy as in `Model/Bus.lean`, outer `none` being a panic (`eventbus/mysql/eventbus.go:59-65,450`; it is taken to depend on its arguments only);
`accepts`: does the database take these bytes for the column `failed_message` (`po.go:170`)? -/
structure Env where
  window : Nat
  limit : Nat
  next : Nat → Nat → Option (Option (Nat × Nat))
  accepts : ByteArray → Bool

/-- what a handler does: the text of its error, or what is logged for its panic (value and stack) (`eventbus/mysql/eventbus.go:564-569,590-594`) -/
inductive Reply where
  | ok
  | err (msg : ByteArray)
  | panic (msg : ByteArray)

/-- `spo.FailedMessage[:65535]` if it is longer (`eventbus/mysql/eventbus.go:571-573`): counts bytes -/
def cut (m : ByteArray) : ByteArray := if 65535 < m.size then m.extract 0 65535 else m

/-- `doRetryStrategy` (`eventbus/mysql/eventbus.go:439-459`); `none`: `Next` panics -/
def retry (env : Env) (now : Nat) (r : Rec) : Option Rec :=
  match env.next r.retry now with
  | none => none
  | some (some (c, t)) => some { r with retry := c, next := t }
  | some none => some { r with status := .failed }

/-- tables, is the process alive, the events the handler was called with (`eventbus/mysql/eventbus.go:549-633`) -/
structure Out where
  db : DB
  alive : Bool
  called : List DEv

/-- after a failure with this message (`eventbus/mysql/eventbus.go:563-579,590-594`). If `Next` panics, the deferred function calls it again (or calls it for the first time), and nothing recovers its panic: gorm rolls the transaction back and panics again in a
goroutine of the bus. If the row can not be saved, the error of `Save` is the result of the transaction, which is rolled back. -/
def failure (env : Env) (now : Nat) (r : Rec) (ev : DEv) (m : ByteArray) (db : DB) : Out :=
  match retry env now r with
  | none => ⟨db, false, [ev]⟩
  | some r' => if env.accepts (cut m) then ⟨saveRec db r', true, [ev]⟩ else ⟨db, true, [ev]⟩

/-- `handleEvent` (`eventbus/mysql/eventbus.go:549-601`). The message written when the predecessor is not ready is a constant and accepted (`584-587`). -/
def handle1 (env : Env) (svc start now : Nat) (ans : DEv → Reply) (t : Tuple) (db : DB) : Out :=
  if db.recs.any fun x => x.id == t.r.id then
    if t.r.status ≠ .init then ⟨db, true, []⟩
    else if mayCall db svc start t.e then
      match ans t.e.ev with
      | .ok => ⟨saveRec db { t.r with status := .success }, true, [t.e.ev]⟩
      | .err m => failure env now t.r t.e.ev m db
      | .panic m => failure env now t.r t.e.ev m db
    else ⟨saveRec db t.r, true, []⟩
  else ⟨db, true, []⟩

/-- the loop of the consumer (`eventbus/mysql/eventbus.go:461-485`); it ends with the process -/
def handleRest (env : Env) (svc start now : Nat) (ans : DEv → Reply) : List Tuple → DB → Out
  | [], db => ⟨db, true, []⟩
  | t :: ts, db =>
    if (handle1 env svc start now ans t db).alive then
      { handleRest env svc start now ans ts (handle1 env svc start now ans t db).db with
        called := (handle1 env svc start now ans t db).called ++ (handleRest env svc start now ans ts (handle1 env svc start now ans t db).db).called }
    else handle1 env svc start now ans t db

/-- `handleEvents` (`eventbus/mysql/eventbus.go:603-633`); its `recover` does not see panics of the consumers' goroutines -/
def pass (env : Env) (svc now : Nat) (ans : DEv → Reply) (db : DB) : Out :=
  match scanStart db env.window now with
  | none => ⟨db, true, []⟩
  | some start => handleRest env svc start now ans (scan db svc env.limit start now) db

end Ddd.BusMsg
