import Mathlib.Data.List.Sort
/-!
# MySQL event bus: tables and operations

Models `/repo/eventbus/mysql/eventbus.go` and `po.go`. Strings are numbers (0 is the empty string), time is a natural number (one clock), tables are lists. Columns that are never
read are left out: `failed_message`, `run_at`, `created_at` of the rows.
-/
namespace Ddd.Bus

/-- `SendType` (`/repo/event.go:36-42`) -/
inductive SendType where
  | normal | fifo | laxFifo | transaction | delay
  deriving DecidableEq, Repr

/-- `DomainEvent` (`event.go:222-229`); `evId` is the (xid) ID, `body` type and payload. -/
structure DEv where
  evId : Nat
  sender : Nat
  sendType : SendType
  created : Nat
  body : Nat
  deriving DecidableEq, Repr

/-- `EventPO` (`po.go:61-69`); `event_id`, `sender`, `event_created_at` are copies of fields of the event (`eventPersist`, `po.go:135-142`). `transId = 0`: none. -/
structure EvRow where
  id : Nat
  ev : DEv
  transId : Nat
  deriving DecidableEq, Repr

/-- `ServiceEventStatus` (`po.go:32-42`) -/
inductive Status where
  | init | success | failed | precedingFailed | expired
  deriving DecidableEq, Repr

/-- `ServiceEventPO` (`po.go:164-174`), a delivery record. -/
structure Rec where
  id : Nat
  service : Nat
  eventId : Nat
  retry : Nat
  status : Status
  created : Nat
  next : Nat
  deriving DecidableEq, Repr

/-- `Transaction` (`po.go:87-93`) -/
structure TxRow where
  id : Nat
  service : Nat
  events : List DEv
  due : Nat
  deriving DecidableEq, Repr

/-- The four tables with their auto-increment counters. (the tables of `eventbus/mysql/po.go:61-95,121-133,164-178`.) -/
structure DB where
  events : List EvRow
  recs : List Rec
  services : List Nat
  txs : List TxRow
  nextEv : Nat
  nextRec : Nat
  nextTx : Nat
  deriving DecidableEq, Repr

/-! ## Dispatch (`eventbus.go:256-299`) -/

/-- `Create(pos)` (`eventbus.go:258-275`): one multi-row `INSERT`; IDs are assigned in order. -/
def newEvents (first tid : Nat) : List DEv → List EvRow
  | [] => []
  | e :: es => ⟨first, e, tid⟩ :: newEvents (first + 1) tid es

/-- `INSERT` of event rows: `Create(pos)` (`eventbus/mysql/eventbus.go:273`). -/
def insertEvents (db : DB) (tid : Nat) (es : List DEv) : DB :=
  { db with events := db.events ++ newEvents db.nextEv tid es, nextEv := db.nextEv + es.length }

/-- `spos` for one service (`eventbus.go:282-295`): pending, runnable from the creation time of the event on. -/
def newRecs (first svc : Nat) : List EvRow → List Rec
  | [] => []
  | p :: ps => ⟨first, svc, p.id, 0, .init, p.ev.created, p.ev.created⟩ :: newRecs (first + 1) svc ps

/-- `INSERT` of delivery records for one service (`eventbus/mysql/eventbus.go:282-295`). -/
def insertRecs (db : DB) (svc : Nat) (ps : List EvRow) : DB :=
  { db with recs := db.recs ++ newRecs db.nextRec svc ps, nextRec := db.nextRec + ps.length }

/-- the inserts of the delivery records for the first `n` services. (`eventbus/mysql/eventbus.go:281-296`.) -/
def insertAllRecs (ps : List EvRow) : List Nat → DB → DB
  | [], db => db
  | s :: ss, db => insertAllRecs ps ss (insertRecs db s ps)

/-- `Dispatch` of `es` when only its first `n` statements succeed (`n` large: all of them): insert the events, list the services, insert the records service by service.
Every statement is executed on `e.getDB(ctx)` or `e.db`, not on the transaction opened at `eventbus.go:277`, so what was executed stays. `true`: returned nil. `Create` of an
empty slice is an error (`gorm.ErrEmptySlice`). Duplicates in the unique index of the records can not occur because event IDs are new. -/
def dispatch (db : DB) (tid : Nat) (es : List DEv) (n : Nat) : DB × Bool :=
  if es = [] then (db, false) else
  match n with
  | 0 => (db, false)
  | 1 => (insertEvents db tid es, false)
  | n + 2 => (insertAllRecs (newEvents db.nextEv tid es) (db.services.take n) (insertEvents db tid es), decide (db.services.length ≤ n))

/-! ## Transactional events (`eventbus.go:305-349,635-666`) -/

/-- `DispatchBegin` (`eventbus.go:306-319`); returns the transaction put into the context. -/
def dispatchBegin (db : DB) (svc now timeout : Nat) (es : List DEv) (ok : Bool) : DB × Option TxRow :=
  if es = [] then (db, none) else if !ok then (db, none) else
  let tx : TxRow := ⟨db.nextTx, svc, es, now + timeout⟩
  ({ db with txs := db.txs ++ [tx], nextTx := db.nextTx + 1 }, some tx)

/-- `Delete(tx)` on `ddd_event_transaction` (`eventbus/mysql/eventbus.go:339,348`). -/
def deleteTx (db : DB) (id : Nat) : DB := { db with txs := db.txs.filter fun t => decide (t.id ≠ id) }

/-- the look-up of `Commit` (`eventbus.go:328-331`): is there an event of this transaction? -/
def commitLook (db : DB) (tx : TxRow) : Bool := db.events.any fun e => e.transId == tx.id

/-- `Commit` after a look-up that found nothing, when only its next `n` statements succeed (`eventbus.go:332-339`): dispatch, then delete the transaction row. -/
def commitRest (db : DB) (tx : TxRow) (n : Nat) : DB × Bool :=
  match dispatch db tx.id tx.events n with
  | (db1, false) => (db1, false)
  | (db1, true) => if n < 2 + db.services.length + 1 then (db1, false) else (deleteTx db1 tx.id, true)

/-- `Commit` with the transaction `tx` of the context when only its first `n` statements succeed (`eventbus.go:322-340`): look for an event of this transaction; if
there is one, return without doing anything; otherwise dispatch, then delete the transaction row. -/
def commit (db : DB) (tx : TxRow) (n : Nat) : DB × Bool :=
  match n with
  | 0 => (db, false)
  | n + 1 => if commitLook db tx then (db, true) else commitRest db tx n

/-- `Rollback` (`eventbus.go:343-349`) -/
def rollback (db : DB) (tx : TxRow) (ok : Bool) : DB × Bool := if ok then (deleteTx db tx.id, true) else (db, false)

/-- answers of the transaction checker (`/repo/event.go:57-63`) -/
inductive TxAns where
  | unknown | commit | rollback
  deriving DecidableEq, Repr

/-- `checkTX` (`eventbus.go:635-648`): asks about the first event only; errors are only logged. -/
def checkTx (ask : DEv → TxAns) (db : DB) (tx : TxRow) (n : Nat) : DB :=
  match tx.events with
  | [] => db
  | e :: _ =>
    match ask e with
    | .unknown => db
    | .commit => (commit db tx n).1
    | .rollback => (rollback db tx (decide (0 < n))).1

/-- `handleTransactions` (`eventbus.go:650-666`) in a database transaction: all overdue transactions of the service, one after the other; `ns` says how many statements
succeed for each. (A row already deleted by another one can not be in the list.) -/
def handleTxs (ask : DEv → TxAns) (svc now : Nat) (ns : Nat → Nat) (db : DB) : DB :=
  (db.txs.filter fun t => t.service == svc && decide (t.due < now)).foldl (fun d t => checkTx ask d t (ns t.id)) db

/-- `initService` (`eventbus.go:361-364`): `FirstOrCreate`. -/
def register (db : DB) (svc : Nat) : DB := if svc ∈ db.services then db else { db with services := db.services ++ [svc] }

/-! ## Retry strategies (`eventbus.go:59-130`) -/

/-- `IRetryStrategy.Next` for (`RetryCount`, `time.Now()`): the new count and time, or no more retry. (`eventbus/mysql/eventbus.go:59-65`; `po.go:99-103`.) -/
abbrev Strategy := Nat → Nat → Option (Nat × Nat)

/-- `LimitRetry` (`eventbus.go:67-83`). -/
def limitRetry (limit : Int) : Strategy := fun count now => if (count : Int) > limit then none else some (count + 1, now)

/-- `IntervalRetry` (`eventbus.go:86-107`); `RetryTime` is `time.Now()` for every count (`eventbus.go:445-449`). -/
def intervalRetry (interval : Nat) (limit : Int) : Strategy := fun count now => if (count : Int) > limit then none else some (count + 1, now + interval)

/-- `CustomRetry` (`eventbus.go:110-130`). -/
def customRetry (intervals : List Nat) : Strategy := fun count now =>
  match intervals[count]? with
  | none => none
  | some d => some (count + 1, now + d)

/-- `doRetryStrategy` (`eventbus.go:439-459`); the strategy is never nil (`eventbus.go:197-206`). -/
def retryStep (st : Strategy) (now : Nat) (r : Rec) : Rec :=
  match st r.retry now with
  | some (c, t) => { r with retry := c, next := t }
  | none => { r with status := .failed }

/-! ## Scanning (`eventbus.go:384-437,603-633`) -/

/-- `scanStartTime` (`eventbus.go:48`): 24 hours, as a parameter. -/
structure Cfg where
  window : Nat
  limit : Nat
  retention : Nat
  strategy : Strategy

/-- first event by primary key inside the window (`eventbus.go:612-620`). -/
def scanStart (db : DB) (window now : Nat) : Option Nat :=
  ((db.events.filter fun e => decide (now ≤ e.ev.created + window)).insertionSort fun a b => a.id ≤ b.id).head?.map EvRow.id

/-- pending records of the service from event `start` on, by event (`eventbus.go:388-391`). -/
def pendingFrom (db : DB) (svc start : Nat) : List Rec :=
  (db.recs.filter fun r => r.service == svc && decide (r.status = .init) && decide (start ≤ r.eventId)).insertionSort fun a b => a.eventId ≤ b.eventId

/-- the offset shortcut (`eventbus.go:385-401`); the comparison mixes an event ID with a record ID as in the code. -/
def scanOffset (start : Nat) (earliest : Rec) : Nat := if 0 < earliest.id then (if start < earliest.id then earliest.eventId else start) else start

/-- the delivery records of a scan (`eventbus.go:385-419`). -/
def scanRecs (db : DB) (svc start limit now : Nat) : List Rec :=
  match (pendingFrom db svc start).head? with
  | none => []
  | some r0 => ((pendingFrom db svc (scanOffset start r0)).filter fun r => decide (r.next ≤ now)).take limit

/-- a delivery record with an event (`EventTuple` (`eventbus/mysql/eventbus.go:378-382`)) -/
structure Tuple where
  r : Rec
  e : EvRow
  deriving DecidableEq, Repr

/-- reading the events and pairing by position (`eventbus.go:420-436`); `db` is the database at this moment. (If the positions ran out Go would panic, which can not happen: there are
never more events than records.) -/
def pairUp (db : DB) (rs : List Rec) : List Tuple :=
  List.zipWith Tuple.mk rs ((db.events.filter fun e => decide (e.id ∈ rs.map Rec.eventId)).insertionSort fun a b => a.id ≤ b.id)

/-- `getScanEvents` after finding the start (`eventbus.go:384-437`), when nobody interferes. -/
def scan (db : DB) (svc limit start now : Nat) : List Tuple := pairUp db (scanRecs db svc start limit now)

/-! ## Handling (`eventbus.go:461-601`) -/

/-- order of the query for the preceding event (`eventbus.go:500`): `event_created_at desc, event_id desc`. -/
def later (a b : EvRow) : Prop := b.ev.created < a.ev.created ∨ (a.ev.created = b.ev.created ∧ b.ev.evId ≤ a.ev.evId)

/-- Auxiliary: decidability, no counterpart in `eventbus/mysql/eventbus.go`. -/
instance : DecidableRel later := fun a b => by unfold later; infer_instance

/-- the preceding event (`eventbus.go:495-505`) -/
def preceding (db : DB) (e : EvRow) : Option EvRow :=
  ((db.events.filter fun p => p.ev.sender == e.ev.sender && decide (p.ev.created ≤ e.ev.created) && decide (p.id < e.id)).insertionSort later).head?

/-- `checkPrecedingEvent` (`eventbus.go:487-545`): `true` is nil. -/
def precedingReady (db : DB) (svc start : Nat) (e : EvRow) : Bool :=
  if e.ev.sender = 0 then false else
  match preceding db e with
  | none => true
  | some p =>
    if p.id < start then true
    else
      match db.recs.find? fun r => r.service == svc && r.eventId == p.id with
      | none => true
      | some r =>
        match e.ev.sendType with
        | .fifo => decide (r.status = .success) || decide (r.status = .expired)
        | .laxFifo => decide (r.status ≠ .init)
        | _ => true

/-- is the handler called (`eventbus.go:582-588`)? -/
def mayCall (db : DB) (svc start : Nat) (e : EvRow) : Bool :=
  if e.ev.sendType = .fifo ∨ e.ev.sendType = .laxFifo then precedingReady db svc start e else true

/-- `tx.Save(spo)` (`eventbus.go:576`): overwrites the whole row with the worker's copy. -/
def saveRec (db : DB) (r : Rec) : DB := { db with recs := db.recs.map fun x => if x.id = r.id then r else x }

/-- What a handler does. (`e.cb(ctx, po.Event)` (`eventbus/mysql/eventbus.go:590`).) -/
inductive Ret where
  | ok | err | panic
  deriving DecidableEq, Repr

/-- the worker's copy after the handler returned or panicked (`eventbus.go:563-569,590-597`) -/
def afterCall (st : Strategy) (now : Nat) (r : Rec) : Ret → Rec
  | .ok => { r with status := .success }
  | .err => retryStep st now r
  | .panic => retryStep st now r

/-- `handleEvent` (`eventbus.go:549-601`) when nobody interferes: find the row, check the (worker's copy of the) status, check the predecessor, call, save. Returns what the handler was
called with. -/
def handle (c : Cfg) (db : DB) (svc start now : Nat) (t : Tuple) (ans : DEv → Ret) : DB × Option DEv :=
  if db.recs.any fun x => x.id == t.r.id then
    if t.r.status ≠ .init then (db, none)
    else if mayCall db svc start t.e then (saveRec db (afterCall c.strategy now t.r (ans t.e.ev)), some t.e.ev)
    else (saveRec db t.r, none)
  else (db, none)

/-- the loop over the scanned tuples with one consumer (`eventbus.go:461-485`); `ans i` answers the i-th tuple. -/
def handleAll (c : Cfg) (svc start now : Nat) (ans : Nat → DEv → Ret) : Nat → List Tuple → DB → DB × List DEv
  | _, [], db => (db, [])
  | i, t :: ts, db =>
    match handle c db svc start now t (ans i) with
    | (db1, called) =>
      match handleAll c svc start now ans (i + 1) ts db1 with
      | (db2, cs) => (db2, called.toList ++ cs)

/-- `handleEvents` (`eventbus.go:603-633`), one run that nobody interferes with, at one moment. -/
def handleEvents (c : Cfg) (svc now : Nat) (ans : Nat → DEv → Ret) (db : DB) : DB × List DEv :=
  match scanStart db c.window now with
  | none => (db, [])
  | some start => handleAll c svc start now ans 0 (scan db svc c.limit start now) db

/-! ## Cleaning (`eventbus.go:668-743`) -/

/-- the event IDs to clean (`eventbus.go:672-676`) -/
def cleanable (c : Cfg) (db : DB) (svc now : Nat) : List Nat :=
  (db.recs.filter fun r => r.service == svc && decide (r.status = .success) && decide (r.created + c.retention < now)).map Rec.eventId

/-- first statement of `deleteServiceEvents` (`eventbus.go:691-693`) -/
def deleteRecs (db : DB) (svc : Nat) (ids : List Nat) : DB :=
  { db with recs := db.recs.filter fun r => !(r.service == svc && decide (r.eventId ∈ ids)) }

/-- the IDs no record references (`eventbus.go:695-711`) -/
def unreferenced (db : DB) (ids : List Nat) : List Nat := ids.filter fun i => !(db.recs.any fun r => r.eventId == i)

/-- last statement of `deleteServiceEvents` (`eventbus.go:712-717`) -/
def deleteEvents (db : DB) (ids : List Nat) : DB := { db with events := db.events.filter fun e => decide (e.id ∉ ids) }

/-- `deleteServiceEvents` for one batch (`eventbus.go:690-719`), when nobody interferes -/
def cleanBatch (svc : Nat) (db : DB) (ids : List Nat) : DB :=
  let db1 := deleteRecs db svc ids
  deleteEvents db1 (unreferenced db1 ids)

/-- batches of ten (`eventbus.go:720-741`) -/
def batches : List Nat → List (List Nat)
  | [] => []
  | x :: xs => (x :: xs).take 10 :: batches ((x :: xs).drop 10)
  termination_by l => l.length
  decreasing_by simp; omega

/-- `cleanEvents` (`eventbus.go:669-743`), when nobody interferes -/
def clean (c : Cfg) (svc now : Nat) (db : DB) : DB := (batches (cleanable c db svc now)).foldl (cleanBatch svc) db

/-! ## Histories -/

/-- What can happen on the bus, by any client or instance; operations do not overlap, but every one may stop after any number of statements (crash or error).
`begin`: `DispatchBegin`; `commit`/`rollback`: called by a client with the context of the transaction `tx`; `check`: `handleTransactions` of a service, the checker answering `ask`;
`run`: `handleEvents` of a service; `clean`: `cleanEvents` of a service. A context with a transaction that was never begun does not exist, so `commit` and `rollback` with one do nothing. (Entry points of `eventbus/mysql/eventbus.go`: 256, 306, 322, 343, 603, 650, 669.) -/
inductive Op where
  | dispatch (es : List DEv) (n : Nat)
  | begin (svc now timeout : Nat) (es : List DEv) (ok : Bool)
  | commit (tx : TxRow) (n : Nat)
  | rollback (tx : TxRow) (ok : Bool)
  | check (ask : DEv → TxAns) (svc now : Nat) (ns : Nat → Nat)
  | register (svc : Nat)
  | run (c : Cfg) (svc now : Nat) (ans : Nat → DEv → Ret)
  | clean (c : Cfg) (svc now : Nat)

/-- effect of an operation on the database (`eventbus/mysql/eventbus.go:256-298,306-349,603-743`) -/
def Op.apply (db : DB) : Op → DB
  | .dispatch es n => (Bus.dispatch db 0 es n).1
  | .begin svc now timeout es ok => (dispatchBegin db svc now timeout es ok).1
  | .commit tx n => if tx.id < db.nextTx then (Bus.commit db tx n).1 else db
  | .rollback tx ok => if tx.id < db.nextTx then (Bus.rollback db tx ok).1 else db
  | .check ask svc now ns => handleTxs ask svc now ns db
  | .register svc => Bus.register db svc
  | .run c svc now ans => (handleEvents c svc now ans db).1
  | .clean c svc now => Bus.clean c svc now db

/-- a history (Auxiliary of the model, sequences of the entry points of `eventbus/mysql/eventbus.go`) -/
def runOps (db : DB) (ops : List Op) : DB := ops.foldl Op.apply db

end Ddd.Bus
