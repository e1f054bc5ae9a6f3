import Verif.Model.Timer
/-!
# Construction and life of a DB timer

Models `NewDBTimer`, `Start`, and the panics of one process (`/repo/d_timer/sql/timer.go:30-64,106-108,110-168`). A pass of `handleJobs` is cut into its iterations; other clients may do anything to the table between two
of them (what they may do during a call is the subject of the transition system of `Model/Timer.lean`). The select of a pass answers in the order of the table (the primary key).
-/
namespace Ddd.TimerLife
open Timer

/-- `NewDBTimer` (`d_timer/sql/timer.go:46-64`): panics without a name (`none`); otherwise a timer with the interval the options left, `default` (`RunInterval`, `d_timer/sql/timer.go:51-57`) before them. -/
def newTimer (default : Int) (named : Bool) (opts : List (Int → Int)) : Option Int := if named then some (opts.foldl (fun i f => f i) default) else none

/-- What a callback does (`d_timer/sql/timer.go:133-135`): returns `nil`, returns an error, panics. A timer without a handler (`t.cb == nil`, `106-108`) panics at every call. -/
inductive Ans where
  | ok | failed | panics
  deriving DecidableEq, Repr

/-- One process with one timer, and the table. `loops`: goroutines of `run` (`d_timer/sql/timer.go:157-166`); `pass`: the job IDs still to do in the pass under way; `calls`: the jobs the callback was called with, newest first. -/
structure State where
  now : Nat
  db : DB
  alive : Bool
  started : Bool
  loops : Nat
  pass : Option (List Nat)
  calls : List (Job × Nat)

/-- a new process with a new timer (`d_timer/sql/timer.go:46-64`) -/
def State.boot (s : State) : State := { s with alive := true, started := false, loops := 0, pass := none }

/-- `Start` (`d_timer/sql/timer.go:155-168`): once; `time.NewTicker` panics in the new goroutine if the interval is not positive (`159`). -/
def State.start (interval : Int) (s : State) : State :=
  if s.started then s
  else if 0 < interval then { s with started := true, loops := s.loops + 1 }
  else { s with started := true, alive := false }

/-- The select of a pass (`d_timer/sql/timer.go:111-119`); without jobs the pass is over. -/
def State.poll (svc : Nat) (s : State) : State := { s with pass := some ((s.db.jobs.filter (due svc s.now)).map Job.id) }

/-- The iteration for a job that could be locked (`d_timer/sql/timer.go:123-150`): call, next time, save (`saved`: whether that worked). A panic is not recovered: gorm rolls back and panics again, the process ends. -/
def State.job (c : Cfg) (svc : Nat) (cb : Nat → Job → Ans) (saved : Bool) (s : State) (id : Nat) (rest : List Nat) : State :=
  match s.db.jobs.find? fun j => due svc s.now j && j.id == id with
  | none => { s with pass := some rest }
  | some j =>
    match cb s.now j with
    | .panics => { s with alive := false, pass := none, calls := (j, s.now) :: s.calls }
    | _ => { s with db := if saved then save s.db ((j.afterCall c s.now).stored c) else s.db, pass := some rest, calls := (j, s.now) :: s.calls }

/-- What happens to a process and the table (`d_timer/sql/timer.go:110-168`, lines with the constructors). `cb t j`: the callback at time `t`; `mayLock`: may locking a row fail; `maySave`: may saving fail; `others`: what other clients and instances do to the table. -/
inductive Step (c : Cfg) (interval : Int) (svc : Nat) (cb : Nat → Job → Ans) (mayLock maySave : Bool) (others : DB → DB → Prop) : State → State → Prop
  | time {s d} : Step c interval svc cb mayLock maySave others s { s with now := s.now + d }
  | other {s db'} : others s.db db' → Step c interval svc cb mayLock maySave others s { s with db := db' }
  /-- the process ended, by itself or not, and a new one is started -/
  | boot {s} : Step c interval svc cb mayLock maySave others s s.boot
  | start {s} : s.alive = true → Step c interval svc cb mayLock maySave others s (s.start interval)
  /-- a tick (`timer.go:160-161`); if the select fails the error is logged and nothing happens (`115,161-163`) -/
  | poll {s} : s.alive = true → 0 < s.loops → s.pass = none → Step c interval svc cb mayLock maySave others s (s.poll svc)
  /-- the row can not be locked (`timer.go:125-131`) -/
  | skip {s id rest} : mayLock = true → s.alive = true → s.pass = some (id :: rest) → Step c interval svc cb mayLock maySave others s { s with pass := some rest }
  | job {s id rest saved} : (saved = false → maySave = true) → s.alive = true → s.pass = some (id :: rest) → Step c interval svc cb mayLock maySave others s (s.job c svc cb saved id rest)
  /-- `handleJobs` returns (`timer.go:152`) -/
  | over {s} : s.alive = true → s.pass = some [] → Step c interval svc cb mayLock maySave others s { s with pass := none }

/-- Auxiliary of the model, executions of `d_timer/sql/timer.go:110-168` -/
inductive Steps (c : Cfg) (interval : Int) (svc : Nat) (cb : Nat → Job → Ans) (mayLock maySave : Bool) (others : DB → DB → Prop) : State → State → Prop
  | refl (s) : Steps c interval svc cb mayLock maySave others s s
  | snoc {s s1 s2} : Steps c interval svc cb mayLock maySave others s s1 → Step c interval svc cb mayLock maySave others s1 s2 → Steps c interval svc cb mayLock maySave others s s2

end Ddd.TimerLife
