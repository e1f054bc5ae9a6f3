import Verif.Model.Pool
/-!
# Construction and life of a MySQL event bus

Models `NewEventBus`, `Start`, and the panics of one process (`/repo/eventbus/mysql/eventbus.go:132-219,351-364,603-666,745-777`). Times are milliseconds. What a tick does to the tables is `handleTxs` and a pass of the
worker pool (`Model/Bus.lean`, `Model/Pool.lean`).
-/
namespace Ddd.BusLife
open Bus

/-- `Options` (`eventbus/mysql/eventbus.go:132-149`); `DefaultOffset` is never read and left out, as is the logger. Custom intervals that are negative (the record is due at once) are represented by 0. -/
structure Options where
  retryLimit : Int
  retryInterval : Int
  customRetry : List Nat
  runInterval : Int
  cleanCron : Nat
  retention : Int
  limitPerRun : Int
  consumeConcurrent : Int
  retryStrategy : Option Strategy
  txTimeout : Int

/-- the defaults (`eventbus/mysql/eventbus.go:37-49,179-187`); `cron` stands for "0 2 * * *" -/
def defaults (cron : Nat) : Options :=
  { retryLimit := 0, retryInterval := 0, customRetry := [], runInterval := 100, cleanCron := cron, retention := 172800000, limitPerRun := 100, consumeConcurrent := 1, retryStrategy := none, txTimeout := 60000 }

/-- the choice of the strategy (`eventbus/mysql/eventbus.go:197-206`) -/
def chooseStrategy (o : Options) : Strategy :=
  match o.retryStrategy with
  | some s => s
  | none =>
    if 0 < o.retryInterval then intervalRetry o.retryInterval.toNat o.retryLimit
    else if 0 < o.customRetry.length then customRetry o.customRetry
    else intervalRetry 3000 5

/-- an `EventBus` as far as it does not change (`eventbus/mysql/eventbus.go:154-168`) -/
structure EventBus where
  opt : Options
  strategy : Strategy

/-- what `NewEventBus` does: one of its three panics, or a bus (`eventbus/mysql/eventbus.go:174-219`) -/
inductive Made where
  | badName
  | badCron
  | badRetention
  | bus (b : EventBus)

/-- `NewEventBus` (`eventbus/mysql/eventbus.go:174-219`) but for the registration of the service; `runes` is the length of the service name, `parses` says which expressions `cron.Parse` accepts. -/
def newBus (cron : Nat) (parses : Nat → Bool) (runes : Nat) (opts : List (Options → Options)) : Made :=
  if 30 < runes then .badName else
  let o := opts.foldl (fun o f => f o) (defaults cron)
  if !parses o.cleanCron then .badCron
  else if o.retention < 0 then .badRetention
  else .bus ⟨o, chooseStrategy o⟩

/-- what the scans use (`eventbus/mysql/eventbus.go:48,416,673`); a `LimitPerRun` that is not positive is not modelled (what gorm makes of it depends on its version) -/
def EventBus.cfg (b : EventBus) : Cfg := ⟨86400000, b.opt.limitPerRun.toNat, b.opt.retention.toNat, b.strategy⟩

/-- `checkTX` (`eventbus/mysql/eventbus.go:635-648`); `none`: a panic of the checker, or of `tx.Events[0]` -/
def checkTxP (ask : DEv → Option TxAns) (n : Nat) (db : DB) (tx : TxRow) : Option DB :=
  match tx.events with
  | [] => none
  | e :: _ => (ask e).map fun a => checkTx (fun _ => a) db tx n

/-- `handleTransactions` (`eventbus/mysql/eventbus.go:650-666`); a panic is not recovered: gorm rolls the database transaction back and panics again -/
def handleTxsP (ask : DEv → Option TxAns) (svc now : Nat) (ns : Nat → Nat) (db : DB) : Option DB :=
  (db.txs.filter fun t => t.service == svc && decide (t.due < now)).foldlM (fun d t => checkTxP ask (ns t.id) d t) db

/-- `handleTransactions` with its outcome for the tables (`eventbus/mysql/eventbus.go:650-660`): if the overdue rows can not be read and locked (`locked`), nothing happens; the error is logged (`750-752`). -/
def txPhase (locked : Bool) (ask : DEv → Option TxAns) (svc now : Nat) (ns : Nat → Nat) (db : DB) : Option DB := if locked then some db else handleTxsP ask svc now ns db

/-- One process with one bus, and the tables. `loops`, `crons`: goroutines of `run` and cleaning tasks started (`eventbus/mysql/eventbus.go:765-776`); `passes`: the tuples begun by the passes of its ticks. -/
structure State where
  now : Nat
  db : DB
  alive : Bool
  started : Bool
  loops : Nat
  crons : Nat
  passes : List (List Tuple)

/-- `NewEventBus` of a new process: registers the service and ignores whether that worked (`eventbus/mysql/eventbus.go:217`) -/
def State.boot (svc : Nat) (ok : Bool) (s : State) : State :=
  { s with db := if ok then register s.db svc else s.db, alive := true, started := false, loops := 0, crons := 0 }

/-- `Start` (`eventbus/mysql/eventbus.go:745-777`): once; `time.NewTicker` panics in the new goroutine, which ends the process, if the interval is not positive (`748`). (The cron expression was checked by `NewEventBus`,
so `AddFunc` succeeds.) -/
def State.start (b : EventBus) (s : State) : State :=
  if s.started then s
  else if 0 < b.opt.runInterval then { s with started := true, loops := s.loops + 1, crons := s.crons + 1 }
  else { s with started := true, alive := false }

/-- What happens to a process and the tables. `ask t`: the checker at time `t` (`none` is a panic); `mayLock`: may reading and locking the overdue transactions fail, because others hold locks or the database is down; `regOk`: may the registration in `NewEventBus` succeed; `others`: what other clients and instances do meanwhile; `cb`: has a handler been registered
(`eventbus/mysql/eventbus.go:754`)? The other lines are with the constructors. -/
inductive Step (b : EventBus) (svc : Nat) (cb : Bool) (ask : Nat → DEv → Option TxAns) (mayLock regOk : Bool) (others : Bus.Op → Prop) : State → State → Prop
  | time {s d} : Step b svc cb ask mayLock regOk others s { s with now := s.now + d }
  | other {s op} : others op → Step b svc cb ask mayLock regOk others s { s with db := op.apply s.db }
  /-- the process ended, by itself or not, and a new one is started -/
  | boot {s ok} : (ok = true → regOk = true) → Step b svc cb ask mayLock regOk others s (s.boot svc ok)
  | start {s} : s.alive = true → Step b svc cb ask mayLock regOk others s (s.start b)
  /-- the cleaning task (`eventbus.go:767-771`) -/
  | clean {s} : s.alive = true → 0 < s.crons → Step b svc cb ask mayLock regOk others s { s with db := clean b.cfg svc s.now s.db }
  /-- a tick in which the checker panics: nothing recovers (`eventbus.go:746-752`) -/
  | die {s lk ns} : (lk = true → mayLock = true) → s.alive = true → 0 < s.loops → txPhase lk (ask s.now) svc s.now ns s.db = none → Step b svc cb ask mayLock regOk others s { s with alive := false }
  /-- a tick without handler, or without any event inside the window (`eventbus.go:612-618,754`) -/
  | idle {s lk ns db1} : (lk = true → mayLock = true) → s.alive = true → 0 < s.loops → txPhase lk (ask s.now) svc s.now ns s.db = some db1 → (cb = false ∨ scanStart db1 b.cfg.window s.now = none) → Step b svc cb ask mayLock regOk others s { s with db := db1 }
  /-- a tick with a pass of the worker pool (`eventbus.go:619-632,750-762`) -/
  | tick {s lk ns db1 st ans p} : (lk = true → mayLock = true) → s.alive = true → 0 < s.loops → txPhase lk (ask s.now) svc s.now ns s.db = some db1 → cb = true → scanStart db1 b.cfg.window s.now = some st →
      (∃ m, Pool.Exec (Pool.busWork b.cfg svc st s.now ans (scan db1 svc b.cfg.limit st s.now)) (scan db1 svc b.cfg.limit st s.now).length (.init b.opt.consumeConcurrent db1) m p) → p.returned = true →
      Step b svc cb ask mayLock regOk others s { s with db := p.data, passes := s.passes ++ [(scan db1 svc b.cfg.limit st s.now).take p.next] }

/-- Auxiliary of the model, executions of `eventbus/mysql/eventbus.go:745-777` -/
inductive Steps (b : EventBus) (svc : Nat) (cb : Bool) (ask : Nat → DEv → Option TxAns) (mayLock regOk : Bool) (others : Bus.Op → Prop) : State → State → Prop
  | refl (s) : Steps b svc cb ask mayLock regOk others s s
  | snoc {s s1 s2} : Steps b svc cb ask mayLock regOk others s s1 → Step b svc cb ask mayLock regOk others s1 s2 → Steps b svc cb ask mayLock regOk others s s2

end Ddd.BusLife
