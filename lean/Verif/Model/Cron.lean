import Verif.Model.Consumer
import Verif.Model.Timer
/-!
# Cron tasks of an engine

Models `Engine.RegisterCronTask`, `Engine.RegisterCronTaskOfCommand` (`/repo/engine.go:550-584`) and `onTimer` (`/repo/timer.go:63-65`) on top of the router, the command handlers and the DB timer.
-/
namespace Ddd.Cron
open Router (Reg Fn)

/-- The type `TimerEvent` (`timer.go:49-53`) and the JSON coding of its values: key, cron expression, data. -/
structure Coding where
  timerEvent : Nat
  enc : Nat → Nat → Nat → Nat

/-- the timer of the engine: the default one (`/repo/timer.go:30-46`), or the DB timer of a service. -/
inductive TimerOf where
  | none
  | db (svc : Nat)
  deriving DecidableEq, Repr

/-- the registries of `event.go:81-82` and the table of `d_timer/sql/model.go:13-27`. -/
structure Sys where
  reg : Reg
  db : Timer.DB

/-- outcome of a registration: it returns, or panics: the key is taken; the timer refused; the handler function is refused (`engine.go:551-584`) -/
inductive Out where
  | ok
  | taken
  | noTimer
  | refused (r : Timer.Res)
  | badFunc
  deriving DecidableEq, Repr

/-- a task: `f func(key, cron string)` or `f func(key, cron string) ICommand`; `ident` is the closure that is registered. (`engine.go:551,570`.) -/
inductive Task where
  | func (ident : Nat)
  | command (ident : Nat)
  deriving DecidableEq, Repr

/-- The closures of `engine.go:558-563` and `engine.go:577-582`. -/
def Task.ident : Task → Nat
  | .func i => i
  | .command i => i

/-- `func(ctx context.Context, evt *TimerEvent) error` (`engine.go:559`) -/
def funcFn (cd : Coding) (ident : Nat) : Fn :=
  { ident := ident, isFunc := true, ins := [⟨true, true, false, 0⟩, ⟨false, false, true, cd.timerEvent⟩], outs := [⟨true, true, false, false⟩] }

/-- `func(evt *TimerEvent) ICommand` (`engine.go:578`) -/
def ctorFn (cd : Coding) (ident : Nat) : Consumer.CtorFn :=
  { ident := ident, isFunc := true, ins := [⟨false, false, true, cd.timerEvent⟩], outs := 1 }

/-- `hasEventHandler` (`event.go:120-126`): a key of the map has at least one handler. -/
def taken (r : Reg) (key : Nat) : Bool := !(r.handlers key).isEmpty

/-- the registration of the handler (`engine.go:559-562,578-580`) -/
def addTask (w : Consumer.World) (cd : Coding) (r : Reg) (key : Nat) : Task → Option Reg
  | .func i => Router.registerHandler r key (funcFn cd i)
  | .command i => Consumer.engineRegister w r key (ctorFn cd i)

/-- `e.timer.RunCron(string(key), cron, nil)` (`/repo/timer.go:33-35`, `d_timer/sql/timer.go:66-75`) -/
def runCron (c : Timer.Cfg) (now : Nat) (t : TimerOf) (db : Timer.DB) (key cron : Nat) : Timer.DB × Out :=
  match t with
  | .none => (db, .noTimer)
  | .db svc =>
    match Timer.register c db svc now (.cron key cron 0) with
    | (db', .ok) => (db', .ok)
    | (db', e) => (db', .refused e)

/-- `RegisterCronTask`, `RegisterCronTaskOfCommand` (`engine.go:550-584`) when nobody registers for the same key in between. The handler is registered before the timer is asked and stays if the timer refuses. -/
def registerTask (w : Consumer.World) (cd : Coding) (c : Timer.Cfg) (now : Nat) (t : TimerOf) (s : Sys) (key cron : Nat) (task : Task) : Sys × Out :=
  if taken s.reg key then (s, .taken)
  else
    match addTask w cd s.reg key task with
    | none => (s, .badFunc)
    | some r =>
      let o := runCron c now t s.db key cron
      (⟨r, o.1⟩, o.2)

/-- `onTimer` (`timer.go:63-65`): the event made of a job (`GetType` is its key, `timer.go:55-57`). -/
def timerEvent (cd : Coding) (j : Timer.Job) : Router.Event := ⟨j.key, cd.enc j.key j.cron j.data⟩

/-- `onTimer` (`timer.go:63-65`). -/
def onTimer (w : Consumer.World) (cd : Coding) (r : Reg) (hist : List Consumer.Done) (j : Timer.Job) : Router.Ret × List Consumer.Done :=
  Consumer.deliver w r hist (timerEvent cd j)

/-- the callbacks of the jobs of one poll, in order; a panic is not recovered and ends the process. (`d_timer/sql/timer.go:110-153`.) -/
def callAll (w : Consumer.World) (cd : Coding) (r : Reg) : List Consumer.Done → List Timer.Job → List Consumer.Done
  | hist, [] => hist
  | hist, j :: js =>
    match onTimer w cd r hist j with
    | (.panic, hist') => hist'
    | (_, hist') => callAll w cd r hist' js

/-- one poll of the timer of service `svc` (`d_timer/sql/timer.go:110-153`): the table afterwards (if no callback panics) does not depend on what the callbacks return (`d_timer/sql/timer.go:133-135`). -/
def poll (w : Consumer.World) (cd : Coding) (c : Timer.Cfg) (svc now : Nat) (s : Sys) (hist : List Consumer.Done) : Sys × List Consumer.Done :=
  let o := Timer.handleJobs c svc now s.db
  ({ s with db := o.1 }, callAll w cd s.reg hist o.2)

end Ddd.Cron
