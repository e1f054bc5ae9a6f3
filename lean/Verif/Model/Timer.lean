import Mathlib.Data.List.Basic
/-!
# DB timer

Models `/repo/d_timer/sql/timer.go` and `model.go`. Strings are numbers (0 is the empty string), time is a natural number (one clock). `parse` is `cron.Parse` with the method `Next` of the result; `round` is what the column
`next_time` (type `datetime`, whole seconds, `model.go:18`) makes of a time. The columns `msg` and `created_at` are never read and left out.
-/
namespace Ddd.Timer

/-- `timer.go:22-28` -/
inductive Status where
  | toRun | finished | failed
  deriving DecidableEq, Repr

/-- `TimerJob` (`model.go:13-23`) -/
structure Job where
  id : Nat
  service : Nat
  key : Nat
  cron : Nat
  next : Nat
  status : Status
  data : Nat
  deriving DecidableEq, Repr

/-- `cron.Parse` and `Next` (`d_timer/sql/model.go:29-51`, `timer.go:66-75`), and the column type of `model.go:18`. -/
structure Cfg where
  parse : Nat → Option (Nat → Nat)
  round : Nat → Nat
  /-- no clock is ahead of the true time by more than this; clocks may be behind by any amount (auxiliary, the clocks read in `timer.go:77,113,126` and `model.go:35`) -/
  ahead : Nat := 0
  /-- the clock that decides that a job is due (`timer.go:126`) shows the true time -/
  exact : Bool := true

/-- The table `ddd_timer` with its auto-increment counter. (`d_timer/sql/model.go:13-27`.) -/
structure DB where
  jobs : List Job
  nextId : Nat
  deriving DecidableEq, Repr

/-- What `RunCron`, `RunOnce` (`d_timer/sql/timer.go:66-104`) return. -/
inductive Res where
  | ok | overdue | badCron | duplicate | dbError
  deriving DecidableEq, Repr

/-- `Reset` (`model.go:38-51`): `false` is an error; then the job was closed with it (`model.go:53-60`). -/
def Job.reset (c : Cfg) (now : Nat) (j : Job) : Job × Bool :=
  if j.cron = 0 then (j, true) else
  match c.parse j.cron with
  | none => ({ j with status := .failed }, false)
  | some f => ({ j with next := f now, status := .toRun }, true)

/-- `Next` (`model.go:29-36`) -/
def Job.step (c : Cfg) (now : Nat) (j : Job) : Job × Bool := if j.cron ≠ 0 then j.reset c now else ({ j with status := .finished }, true)

/-- the job after a call (`timer.go:133-138`): what the callback returns does not matter (`timer.go:133-135`). -/
def Job.afterCall (c : Cfg) (now : Nat) (j : Job) : Job :=
  match j.step c now with
  | (j', true) => j'
  | (j', false) => { j' with status := .failed }

/-- what the database keeps of a row (`d_timer/sql/model.go:13-23`) -/
def Job.stored (c : Cfg) (j : Job) : Job := { j with next := c.round j.next }

/-- the arguments of `RunCron` and `RunOnce` (`d_timer/sql/timer.go:66,77`) -/
inductive Req where
  | cron (key exp data : Nat)
  | once (key time data : Nat)
  deriving DecidableEq, Repr

/-- The key argument of `d_timer/sql/timer.go:66,77`. -/
def Req.key : Req → Nat
  | .cron k _ _ => k
  | .once k _ _ => k

/-- the checks before the database is asked, and the job to insert (`timer.go:66-90,96-99`). `RunCron` leaves `NextTime` zero until `Reset`; `Reset` does nothing for an empty expression. -/
def Req.job (c : Cfg) (svc now : Nat) : Req → Job × Res
  | .cron k e d =>
    match (Job.mk 0 svc k e 0 .toRun d).reset c now with
    | (j, true) => (j, .ok)
    | (j, false) => (j, .badCron)
  | .once k t d => if t < now then (Job.mk 0 svc k 0 t .toRun d, .overdue) else (Job.mk 0 svc k 0 t .toRun d, .ok)

/-- the `SELECT` of `FirstOrCreate` (`timer.go:100-103`): conditions with an empty string are left out by gorm. -/
def finds (db : DB) (svc key : Nat) : Bool := db.jobs.any fun j => j.service == svc && (decide (key = 0) || j.key == key)

/-- the `INSERT` of `FirstOrCreate`; the key is unique in the whole table (`model.go:16`). -/
def insert (c : Cfg) (db : DB) (j : Job) : DB × Res :=
  if db.jobs.any fun x => x.key == j.key then (db, .duplicate)
  else (⟨db.jobs ++ [{ j.stored c with id := db.nextId }], db.nextId + 1⟩, .ok)

/-- `RunCron` / `RunOnce` when nobody interferes (`timer.go:66-104`) -/
def register (c : Cfg) (db : DB) (svc now : Nat) (r : Req) : DB × Res :=
  match r.job c svc now with
  | (j, .ok) => if finds db svc r.key then (db, .ok) else insert c db j
  | (_, e) => (db, e)

/-- `Cancel` (`timer.go:92-94`): deletes by key only; without a condition gorm refuses to delete. -/
def cancel (db : DB) (key : Nat) : DB × Res := if key = 0 then (db, .dbError) else ({ db with jobs := db.jobs.filter fun j => decide (j.key ≠ key) }, .ok)

/-- may the job be called by service `svc` now (`timer.go:112-114,125-127`)? -/
def due (svc now : Nat) (j : Job) : Bool := j.service == svc && decide (j.next ≤ now) && decide (j.status = .toRun)

/-- `tx.Save(job)` (`timer.go:141`) -/
def save (db : DB) (j : Job) : DB := { db with jobs := db.jobs.map fun x => if x.id = j.id then j else x }

/-- one job of the loop of `handleJobs` when nobody interferes (`timer.go:121-149`): lock and read again, call, save. Returns the row the callback was called with. -/
def runJob (c : Cfg) (svc now : Nat) (db : DB) (id : Nat) : DB × List Job :=
  match db.jobs.find? fun j => due svc now j && j.id == id with
  | none => (db, [])
  | some j => (save db ((j.afterCall c now).stored c), [j])

/-- the loop (`timer.go:121`) -/
def runJobs (c : Cfg) (svc now : Nat) : DB → List Nat → DB × List Job
  | db, [] => (db, [])
  | db, id :: ids => ((runJobs c svc now (runJob c svc now db id).1 ids).1, (runJob c svc now db id).2 ++ (runJobs c svc now (runJob c svc now db id).1 ids).2)

/-- `handleJobs` when nobody interferes, callbacks take no time and saving works (`timer.go:110-153`). Returns the rows the callback was called with, in order. -/
def handleJobs (c : Cfg) (svc now : Nat) (db : DB) : DB × List Job := runJobs c svc now db ((db.jobs.filter (due svc now)).map Job.id)

/-! ## all interleavings -/

/-- What was observable. `asked`: `RunCron` or `RunOnce` accepted the arguments and did not find the key. `created`: the job is inserted. `called`: the callback of `svc` is called for job `id` (row as read under the lock). `returned`: it returned; `saved`: the job is saved and the transaction committed. `died`: the callback panicked or the process died during the call. (Observed at `d_timer/sql/timer.go:96-153`.) -/
inductive Log where
  | asked (svc : Nat) (r : Req) (time : Nat)
  | created (j : Job)
  | called (svc : Nat) (j : Job) (time : Nat)
  | returned (svc : Nat) (j : Job) (time : Nat) (saved : Bool)
  | died (svc : Nat) (j : Job) (time : Nat)
  | deleted (j : Job)
  deriving DecidableEq, Repr

/-- a job being called, with the row read under the lock (`d_timer/sql/timer.go:125-150`) and the time of the call -/
structure Run where
  svc : Nat
  j : Job
  time : Nat
  deriving DecidableEq, Repr

/-- The clock, the table, the registrations and polls under way, the jobs being called, the log (`d_timer/sql/timer.go:66-153`). -/
structure State where
  now : Nat
  db : DB
  /-- registrations that found nothing and are about to insert -/
  regs : List Job
  /-- the loops of the instances: service and the job IDs still to do (`timer.go:110-121`) -/
  loops : List (Nat × List Nat)
  busy : List Run
  log : List Log

/-- the rows locked (`timer.go:125`) -/
def State.locked (s : State) (id : Nat) : Prop := ∃ r ∈ s.busy, r.j.id = id

/-- All steps. Any number of instances of any services. (The lines of `d_timer/sql/timer.go` are with the constructors.) -/
inductive Step (c : Cfg) : State → State → Prop
  | tick (s : State) (d : Nat) : Step c s { s with now := s.now + d }
  /-- checks and `SELECT` of a registration that finds nothing (`timer.go:66-103`); one that is refused or finds the job changes nothing. The clock was read at `t0`, before the statement. -/
  | regFind (s : State) (svc : Nat) (r : Req) (j : Job) (t0 : Nat) (ht : t0 ≤ s.now + c.ahead) (h : r.job c svc t0 = (j, Res.ok)) (hf : finds s.db svc r.key = false) :
      Step c s { s with regs := j :: s.regs, log := .asked svc r t0 :: s.log }
  /-- `INSERT` of a registration -/
  | regInsert (s : State) (j : Job) (db' : DB) (h : j ∈ s.regs) (hi : insert c s.db j = (db', Res.ok)) :
      Step c s { s with regs := s.regs.erase j, db := db', log := .created { j.stored c with id := s.db.nextId } :: s.log }
  /-- the `INSERT` failed or the client died -/
  | regDrop (s : State) (j : Job) : Step c s { s with regs := s.regs.erase j }
  /-- `Cancel`; waits for locked rows -/
  | cancel (s : State) (key : Nat) (db' : DB) (h : Timer.cancel s.db key = (db', Res.ok)) (hl : ∀ j ∈ s.db.jobs, j.key = key → ¬ s.locked j.id) :
      Step c s { s with db := db', log := (s.db.jobs.filter fun j => decide (j.key = key)).map .deleted ++ s.log }
  /-- `timer.go:110-116`; the clock was read at `t0`, before the statement -/
  | select (s : State) (svc t0 : Nat) (ht : t0 ≤ s.now + c.ahead) : Step c s { s with loops := (svc, ((s.db.jobs.filter (due svc t0)).map Job.id)) :: s.loops }
  /-- `timer.go:122-133`: lock the row if it is still due at the time `t0` the clock showed; the callback is called -/
  | call (s : State) (svc id : Nat) (rest : List Nat) (j : Job) (h : (svc, id :: rest) ∈ s.loops) (hj : j ∈ s.db.jobs) (hid : j.id = id) (t0 : Nat) (ht : t0 ≤ s.now + c.ahead ∧ (c.exact = true → t0 = s.now)) (hd : due svc t0 j = true) (hl : ¬ s.locked id) :
      Step c s { s with loops := (svc, rest) :: s.loops.erase (svc, id :: rest), busy := ⟨svc, j, t0⟩ :: s.busy, log := .called svc j t0 :: s.log }
  /-- the row is locked, gone or not due any more (`timer.go:122-131`); or the loop ends -/
  | skip (s : State) (svc id : Nat) (rest : List Nat) (h : (svc, id :: rest) ∈ s.loops) : Step c s { s with loops := (svc, rest) :: s.loops.erase (svc, id :: rest) }
  | loopDrop (s : State) (l : Nat × List Nat) : Step c s { s with loops := s.loops.erase l }
  /-- the callback returned at `t0`; the job is saved and the transaction committed (`timer.go:133-146`) -/
  | finish (s : State) (r : Run) (h : r ∈ s.busy) (t0 : Nat) (ht : r.time ≤ t0 ∧ t0 ≤ s.now + c.ahead) :
      Step c s { s with busy := s.busy.erase r, db := save s.db ((r.j.afterCall c t0).stored c), log := .returned r.svc r.j t0 true :: s.log }
  /-- the callback returned at `t0`, but saving failed -/
  | finishLost (s : State) (r : Run) (h : r ∈ s.busy) (t0 : Nat) (ht : r.time ≤ t0 ∧ t0 ≤ s.now + c.ahead) : Step c s { s with busy := s.busy.erase r, log := .returned r.svc r.j t0 false :: s.log }
  /-- the callback panicked (not recovered), or the process died -/
  | crash (s : State) (r : Run) (h : r ∈ s.busy) : Step c s { s with busy := s.busy.erase r, log := .died r.svc r.j s.now :: s.log }

/-- `d_timer/sql/timer.go`: before any call, with an empty table. -/
def State.init : State := { now := 0, db := ⟨[], 1⟩, regs := [], loops := [], busy := [], log := [] }

/-- States that can occur. (Auxiliary of the model, executions of `d_timer/sql/timer.go`.) -/
inductive Reachable (c : Cfg) : State → Prop
  | init : Reachable c .init
  | step {s s'} : Reachable c s → Step c s s' → Reachable c s'

end Ddd.Timer
