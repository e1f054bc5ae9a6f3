import Verif.Model.Startup
import Verif.Model.Stage
/-!
# Using the MySQL bus from outside of the framework

Models `/repo/example/example_outer/outer_usage.go`: `Handle` wraps a database transaction of its own and hands an event over to the bus with `DispatchBegin`, `Commit` and `Rollback`; `Init` registers a transaction checker
and a handler at the bus. The calls are those of `Model/Stage.lean`, so that histories of the bus (`Spec/Delivery.lean`) can be used for them.
-/
namespace Ddd.Outer
open Bus Router

/-! ## `Handle` -/

/-- What the world answers during `Handle` (`example/example_outer/outer_usage.go:64-88`): `BEGIN`, the statements and the result of the business code, `DispatchBegin`, `COMMIT`, `ROLLBACK`, and the bus at the end. -/
structure Ans where
  begin_ : Stat
  writes : List (Action × Stat)
  body : Stat
  begun : Stat
  commit : Stat
  rollback : Stat
  busCommit : Stat
  busRollback : Stat

/-- a result with the deferred `Rollback` of gorm's `Transaction` (used in `example/example_outer/outer_usage.go:67`) before it, which may panic -/
def Ans.afterRollback (a : Ans) (st : Stat) : Stat := if a.rollback = .panic then .panic else st

/-- the calls from `BEGIN` to the return of the business code (`example/example_outer/outer_usage.go:67-71`) -/
def Ans.front (a : Ans) : Trace := .begin .ok :: .mainStart :: ((a.writes.map fun w => .exec w.1 w.2) ++ [.mainRet a.body])

/-- `db.Transaction(func …)` (`example/example_outer/outer_usage.go:67-79`): gorm begins, calls the function, commits if it returned nil; a deferred function rolls back after an error or a panic of the function and after
an error of the commit. -/
def transaction (e : Event) (a : Ans) : Trace × Stat :=
  match a.begin_ with
  | .err => ([.begin .err], .err)
  | .panic => ([.begin .panic], .panic)
  | .ok =>
    match a.body with
    | .err => (a.front ++ [.rollback a.rollback], a.afterRollback .err)
    | .panic => (a.front ++ [.rollback a.rollback], a.afterRollback .panic)
    | .ok =>
      match a.begun with
      | .err => (a.front ++ [.dispatchBegin [e] .err, .rollback a.rollback], a.afterRollback .err)
      | .panic => (a.front ++ [.dispatchBegin [e] .panic, .rollback a.rollback], a.afterRollback .panic)
      | .ok =>
        match a.commit with
        | .ok => (a.front ++ [.dispatchBegin [e] .ok, .commit .ok], .ok)
        | .err => (a.front ++ [.dispatchBegin [e] .ok, .commit .err, .rollback a.rollback], a.afterRollback .err)
        | .panic => (a.front ++ [.dispatchBegin [e] .ok, .commit .panic], .panic)

/-- `Handle` (`example/example_outer/outer_usage.go:64-88`): the bus is told about the end of the transaction. `ctx` holds the transaction of the bus exactly if `DispatchBegin` succeeded; without it `Rollback` returns
`ErrNoTransaction`. -/
def handle (e : Event) (a : Ans) : Trace :=
  match transaction e a with
  | (t, .ok) => t ++ [.busCommit a.busCommit]
  | (t, .err) => t ++ [.busRollback a.busRollback]
  | (t, .panic) => t

/-! ## Who is asked -/

/-- A function of the bus that can be set: nil, one the user gave to the bus, or the one of the framework (`eventbus/mysql/eventbus.go:160-163,301-303,357-359`). -/
inductive Slot (F : Type) where
  | none
  | own (f : F)
  | framework

/-- What a program does that matters here. `mine`: the options in force name this bus. (`example/example_outer/outer_usage.go:32-61`, `event.go:95-164`, `engine.go:437-512,605-628`.)
* `ownChecker`, `ownHandler`: `RegisterEventTXChecker`, `RegisterEventHandler` of the bus;
* `registerBus`: `dddfirework.RegisterEventBus`; `newEngine`: `NewEngine`; `run`: `Run` or `RunCommand` of an engine (both call `WithOption`); `createDelete`: `Create`, `Delete` (which do not);
* `reg`: registrations by event type. -/
inductive Act where
  | ownChecker (f : DEv → Option TxAns)
  | ownHandler (f : DEv → Bus.Ret)
  | registerBus
  | newEngine (mine : Bool)
  | run (mine : Bool)
  | createDelete
  | reg (c : RegCall)

/-- the functions set at one bus, and the registrations by type so far (`eventbus/mysql/eventbus.go:154-168`, `event.go:80-93`) -/
structure Prog where
  checker : Slot (DEv → Option TxAns)
  handler : Slot (DEv → Bus.Ret)
  hist : List RegCall

/-- a step of the program (`eventbus/mysql/eventbus.go:301-303,357-359`, `event.go:95-164`, `engine.go:451-457,485-512,610-617`) -/
def Act.apply (p : Prog) : Act → Prog
  | .ownChecker f => { p with checker := .own f }
  | .ownHandler f => { p with handler := .own f }
  | .registerBus => { p with checker := .framework, handler := .framework }
  | .newEngine mine => if mine then { p with checker := .framework, handler := .framework } else p
  | .run mine => if mine then { p with checker := .framework, handler := .framework } else p
  | .createDelete => p
  | .reg c => { p with hist := p.hist ++ [c] }

/-- a new bus (`eventbus/mysql/eventbus.go:170-219`) after some steps of the program -/
def after (acts : List Act) : Prog := acts.foldl Act.apply ⟨.none, .none, []⟩

/-- `e.txChecker(evt)` (`eventbus/mysql/eventbus.go:638`); `none` is a panic -/
def Prog.ask (p : Prog) (view : DEv → Router.Event) (w : World) (e : DEv) : Option TxAns :=
  match p.checker with
  | .none => none
  | .own f => f e
  | .framework => Startup.toAns (onTXChecker w (Reg.after p.hist) (view e)).1

/-- `e.cb(ctx, evt)` (`eventbus/mysql/eventbus.go:590-597`); `none`: no callback, events are not handled (`eventbus/mysql/eventbus.go:757-762`) -/
def Prog.call (p : Prog) (view : DEv → Router.Event) (w : World) (e : DEv) : Option Bus.Ret :=
  match p.handler with
  | .none => none
  | .own f => some (f e)
  | .framework => some (Startup.toRet (onEvent w (Reg.after p.hist) (view e)).1)

/-- `Init` (`example/example_outer/outer_usage.go:32-61`): a checker that always answers `TXCommit`, then `RegisterEventBus`, then a handler for the type of the event -/
def init (typ : Nat) (f : Fn) : List Act := [.ownChecker fun _ => some .commit, .registerBus, .reg (.handler typ f)]

end Ddd.Outer
