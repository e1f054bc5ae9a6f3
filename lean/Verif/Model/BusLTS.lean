import Verif.Model.Bus
/-!
# MySQL event bus: all interleavings

Any number of dispatchers, workers (of any services, with any number of consumers) and cleaners run at the same time; the atomic steps are the SQL statements and the calls of handlers. `log` is a history
variable: what was observable so far, latest first.
-/
namespace Ddd.Bus

/-- A `Dispatch` under way (`eventbus.go:272-298`): the events are inserted; then the services are listed; then the records are inserted service by service. -/
inductive Disp where
  | inserted (ps : List EvRow)
  | listed (ps : List EvRow) (todo : List Nat)
  deriving DecidableEq

/-- A `handleEvents` under way (`eventbus.go:603-633,384-437`): start known; offset known; records read. -/
inductive Scan where
  | begun (svc start : Nat)
  | offset (svc start off : Nat)
  | rows (svc start : Nat) (rs : List Rec)
  deriving DecidableEq

/-- A tuple in the channel of a run, or being handled (`eventbus.go:461-485`). `t.r` is the worker's copy of the record. -/
structure Job where
  svc : Nat
  start : Nat
  t : Tuple
  deriving DecidableEq

/-- A `cleanEvents` under way (`eventbus.go:669-743`): event IDs still to clean; the records of a batch are deleted; the events to delete are known. -/
inductive Clean where
  | todo (svc : Nat) (ids : List Nat)
  | counting (svc : Nat) (batch rest : List Nat)
  | deleting (svc : Nat) (del rest : List Nat)
  deriving DecidableEq

/-- What was observable. `stored`: a delivery record was inserted. `called`: the handler of `svc` is called for the record of event row `eid`, with the event of row `e`. `returned`: it returned (or panicked);
`saved`: the outcome is in the database. `expired`: somebody set the record to expired by hand. (Observed at `eventbus/mysql/eventbus.go:293` (stored), `590` (called, returned), `576` (saved).) -/
inductive Log where
  | stored (svc eid : Nat)
  | called (svc eid : Nat) (e : EvRow) (time : Nat)
  | returned (svc eid : Nat) (e : EvRow) (ret : Ret) (time : Nat) (saved : Bool)
  | expired (svc eid : Nat)
  deriving DecidableEq

/-- The database shared by all clients and instances of `eventbus/mysql/eventbus.go`, the clock, the calls under way, the locks taken and the log. -/
structure State where
  now : Nat
  db : DB
  disps : List Disp
  scans : List Scan
  pend : List Job
  busy : List Job
  cleans : List Clean
  log : List Log

/-- Assumptions on the environment under which a property is proved; `Pol.any` makes none. (Auxiliary of the model, no counterpart in `eventbus/mysql/eventbus.go`.) -/
structure Pol where
  /-- when a scan reads its events, the events of the records it has read are still there -/
  calm : Bool
  /-- when a worker locks a record, the record is still as the worker read it (workers do not overlap) -/
  fresh : Bool
  /-- no crash or database error between the return of a handler and the commit of the outcome -/
  lossless : Bool
  /-- nobody expires records by hand -/
  noExpire : Bool
  /-- no clock is ahead of the true time by more than this; clocks may be behind by any amount -/
  ahead : Nat

/-- No assumption about what happens between the statements of `eventbus/mysql/eventbus.go`. -/
def Pol.any (ahead : Nat := 0) : Pol := ⟨false, false, false, false, ahead⟩

/-- the records which are locked: those being handled (`eventbus.go:554`) -/
def State.locked (s : State) (rid : Nat) : Prop := ∃ j ∈ s.busy, j.t.r.id = rid

/-- All steps. (One statement of one of the functions of `eventbus/mysql/eventbus.go`, or what happens outside; the lines are with the constructors.) -/
inductive Step (c : Cfg) (pol : Pol) : State → State → Prop
  | tick (s d) : Step c pol s { s with now := s.now + d }
  /-- `initService` (`eventbus.go:361-364`) -/
  | register (s svc) : Step c pol s { s with db := register s.db svc }
  /-- `eventbus.go:273`; `tid` is the transaction of the context or 0 -/
  | dispInsert (s tid es) (he : es ≠ []) :
      Step c pol s { s with db := insertEvents s.db tid es, disps := .inserted (newEvents s.db.nextEv tid es) :: s.disps }
  /-- `eventbus.go:277` -/
  | dispList (s ps) (h : .inserted ps ∈ s.disps) : Step c pol s { s with disps := .listed ps s.db.services :: s.disps.erase (.inserted ps) }
  /-- `eventbus.go:281-296`; the statement fails if it violates the unique index (`po.go:156`) -/
  | dispRecs (s ps svc todo) (h : .listed ps (svc :: todo) ∈ s.disps) (hu : ∀ r ∈ s.db.recs, r.service = svc → ∀ p ∈ ps, r.eventId ≠ p.id) :
      Step c pol s { s with db := insertRecs s.db svc ps, disps := .listed ps todo :: s.disps.erase (.listed ps (svc :: todo)), log := ps.map (fun p => .stored svc p.id) ++ s.log }
  /-- finished, failed or crashed -/
  | dispDrop (s d) : Step c pol s { s with disps := s.disps.erase d }
  /-- `DispatchBegin` (`eventbus.go:306-319`): the transaction row; the clock was read at `t0`, before the statement -/
  | txBegin (s svc timeout es) (he : es ≠ []) (t0) (ht : t0 ≤ s.now + pol.ahead) :
      Step c pol s { s with db := { s.db with txs := s.db.txs ++ [⟨s.db.nextTx, svc, es, t0 + timeout⟩], nextTx := s.db.nextTx + 1 } }
  /-- the last statement of `Commit` (`eventbus.go:339`), or `Rollback` (`eventbus.go:343-349`), by a client or by `handleTransactions` (`eventbus.go:635-666`) -/
  | txDelete (s tid) : Step c pol s { s with db := deleteTx s.db tid }
  /-- `eventbus.go:612-620`; the clock was read at `t0`, before the statement -/
  | scanBegin (s svc start t0) (ht : t0 ≤ s.now + pol.ahead) (h : scanStart s.db c.window t0 = some start) : Step c pol s { s with scans := .begun svc start :: s.scans }
  /-- `eventbus.go:385-401` -/
  | scanOffset (s svc start r0) (h : .begun svc start ∈ s.scans) (h0 : (pendingFrom s.db svc start).head? = some r0) :
      Step c pol s { s with scans := .offset svc start (scanOffset start r0) :: s.scans.erase (.begun svc start) }
  /-- `eventbus.go:408-419`; the clock was read at `t0`, before the statement -/
  | scanRows (s svc start off) (h : .offset svc start off ∈ s.scans) (t0) (ht : t0 ≤ s.now + pol.ahead) :
      Step c pol s { s with scans := .rows svc start (((pendingFrom s.db svc off).filter fun r => decide (r.next ≤ t0)).take c.limit) :: s.scans.erase (.offset svc start off) }
  /-- `eventbus.go:420-436`, and filling the channel (`461-466`) -/
  | scanEvents (s svc start rs) (h : .rows svc start rs ∈ s.scans) (hc : pol.calm = true → ∀ r ∈ rs, ∃ e ∈ s.db.events, e.id = r.eventId) :
      Step c pol s { s with scans := s.scans.erase (.rows svc start rs), pend := (pairUp s.db rs).map (fun t => ⟨svc, start, t⟩) ++ s.pend }
  | scanDrop (s sc) : Step c pol s { s with scans := s.scans.erase sc }
  /-- `eventbus.go:551-590`: lock the row (it must exist and must not be locked), check the copy of the status, check the predecessor, call the handler. One step, taken when the predecessor is
  looked up: nobody else can delete, change or lock the row between its lock and that moment, so that the lock may as well be taken then; and nothing anybody else does depends on whether the handler was
  entered already, so that it may as well be entered then (what is shown for this moment also holds for the actual, later one). -/
  | call (s j) (h : j ∈ s.pend) (hl : ¬ s.locked j.t.r.id) (hx : ∃ x ∈ s.db.recs, x.id = j.t.r.id) (hs : j.t.r.status = .init) (hm : mayCall s.db j.svc j.start j.t.e = true)
      (hf : pol.fresh = true → j.t.r ∈ s.db.recs) :
      Step c pol s { s with pend := s.pend.erase j, busy := j :: s.busy, log := .called j.svc j.t.r.eventId j.t.e s.now :: s.log }
  /-- the predecessor is not ready, or the query for it failed: the copy is saved (`eventbus.go:576,584-587`) -/
  | blocked (s j) (h : j ∈ s.pend) (hl : ¬ s.locked j.t.r.id) (hx : ∃ x ∈ s.db.recs, x.id = j.t.r.id) (hs : j.t.r.status = .init) (hm : j.t.e.ev.sendType = .fifo ∨ j.t.e.ev.sendType = .laxFifo)
      (hf : pol.fresh = true → j.t.r ∈ s.db.recs) :
      Step c pol s { s with pend := s.pend.erase j, db := saveRec s.db j.t.r }
  /-- row missing or locked (`NOWAIT`), error, crash -/
  | jobDrop (s j) : Step c pol s { s with pend := s.pend.erase j }
  /-- the handler returned or panicked at `t0` and now the outcome is committed (`eventbus.go:563-600`). `t0` is not before the call, which was not before `next` of the copy, as the scan selects (`eventbus.go:413`). -/
  | finish (s j ret) (h : j ∈ s.busy) (t0) (ht : j.t.r.next ≤ t0 ∧ t0 ≤ s.now + pol.ahead) :
      Step c pol s { s with busy := s.busy.erase j, db := saveRec s.db (afterCall c.strategy t0 j.t.r ret), log := .returned j.svc j.t.r.eventId j.t.e ret t0 true :: s.log }
  /-- the handler returned or panicked at `t0`, but the outcome is not committed: error, or the process died -/
  | finishLost (s j ret) (h : j ∈ s.busy) (hp : pol.lossless = false) (t0) (ht : j.t.r.next ≤ t0 ∧ t0 ≤ s.now + pol.ahead) :
      Step c pol s { s with busy := s.busy.erase j, log := .returned j.svc j.t.r.eventId j.t.e ret t0 false :: s.log }
  /-- the process died in the handler -/
  | crash (s j) (hp : pol.lossless = false) : Step c pol s { s with busy := s.busy.erase j }
  /-- `eventbus.go:672-676`; the clock was read at `t0`, before the statement -/
  | cleanSelect (s svc t0) (ht : t0 ≤ s.now + pol.ahead) : Step c pol s { s with cleans := .todo svc (cleanable c s.db svc t0) :: s.cleans }
  /-- `eventbus.go:691-693` for a batch; waits for locked rows -/
  | cleanRecs (s svc b rest) (h : .todo svc (b ++ rest) ∈ s.cleans) (hl : ∀ r ∈ s.db.recs, r.service = svc → r.eventId ∈ b → ¬ s.locked r.id) :
      Step c pol s { s with cleans := .counting svc b rest :: s.cleans.erase (.todo svc (b ++ rest)), db := deleteRecs s.db svc b }
  /-- `eventbus.go:695-711` -/
  | cleanCount (s svc b rest) (h : .counting svc b rest ∈ s.cleans) : Step c pol s { s with cleans := .deleting svc (unreferenced s.db b) rest :: s.cleans.erase (.counting svc b rest) }
  /-- `eventbus.go:712-717` -/
  | cleanEvents (s svc d rest) (h : .deleting svc d rest ∈ s.cleans) :
      Step c pol s { s with cleans := .todo svc rest :: s.cleans.erase (.deleting svc d rest), db := deleteEvents s.db d }
  | cleanDrop (s x) : Step c pol s { s with cleans := s.cleans.erase x }
  /-- a person sets a record to expired (`po.go:40-41`); waits for a locked row -/
  | expire (s r) (h : r ∈ s.db.recs) (hl : ¬ s.locked r.id) (hp : pol.noExpire = false) :
      Step c pol s { s with db := saveRec s.db { r with status := .expired }, log := .expired r.service r.eventId :: s.log }

/-- The start: an empty database, nothing under way. (`eventbus/mysql/eventbus.go`: before any call.) -/
def State.init : State :=
  { now := 0, db := { events := [], recs := [], services := [], txs := [], nextEv := 1, nextRec := 1, nextTx := 1 }, disps := [], scans := [], pend := [], busy := [], cleans := [], log := [] }

/-- States that can occur. (Auxiliary of the model, executions of `eventbus/mysql/eventbus.go`.) -/
inductive Reachable (c : Cfg) (pol : Pol) : State → Prop
  | init : Reachable c pol .init
  | step {s s'} : Reachable c pol s → Step c pol s s' → Reachable c pol s'

end Ddd.Bus
