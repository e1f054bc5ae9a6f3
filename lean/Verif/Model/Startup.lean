import Verif.Model.BusLife
import Verif.Model.Router
/-!
# Starting a service: the order of `Start`, `NewEngine` and the registrations

Composes the MySQL bus (`Model/Bus.lean`, `Model/BusLife.lean`) with the registries of handlers and checkers (`Model/Router.lean`) in one process. `Start` runs its ticks in a goroutine
(`/repo/eventbus/mysql/eventbus.go:745-777`), so that they fall between any two steps of the main program. The example starts the bus before it creates the engine and registers
handlers (`/repo/example/main.go:57-64`).
One consumer (`ConsumeConcurrent` 1, the default), the two fields `cb` and `txChecker` are read and written at once.
-/
namespace Ddd.Startup
open Bus Router

/-- What the process does not change. `view`: type and payload of an event (`/repo/event.go:222-229`); `handlers now i`: the user's functions (and decoding) for the i-th event of the pass at time `now`, `checkers now`: those asked
about transactions. -/
structure Env where
  cfg : Cfg
  svc : Nat
  view : DEv → Event
  handlers : Nat → Nat → World
  checkers : Nat → World

/-- One process and the tables. `engine`: was `NewEngine` called with the bus (it sets `cb` and `txChecker`, `/repo/engine.go:452-456`, `eventbus/mysql/eventbus.go:301-303,357-359`)? `hist`: the registrations made so far
(`event.go:95-156`); `alive`: it did not crash. -/
structure Proc where
  db : DB
  engine : Bool
  hist : List RegCall
  alive : Bool

/-- what the callback returns, for the bus (`event.go:167-191`, `eventbus/mysql/eventbus.go:590-597`) -/
def toRet : Router.Ret → Bus.Ret
  | .nil => .ok
  | .err _ => .err
  | .panic => .panic

/-- what `e.txChecker(evt)` is for `checkTX` (`event.go:57-63`, `eventbus/mysql/eventbus.go:638-647`): `none` is a panic; numbers that are neither `TXCommit` nor `TXRollBack` do nothing -/
def toAns : TxRet → Option TxAns
  | .status 1 => some .commit
  | .status 2 => some .rollback
  | .status _ => some .unknown
  | .panic => none

/-- the callback of the bus with the registries of the moment (`event.go:167-191`) -/
def ans (env : Env) (p : Proc) (now : Nat) : Nat → DEv → Bus.Ret := fun i e => toRet (onEvent (env.handlers now i) (Reg.after p.hist) (env.view e)).1

/-- `e.txChecker(evt)` (`eventbus/mysql/eventbus.go:638`): a nil function before `NewEngine`, calling it panics; `onTXChecker` afterwards (`event.go:193-215`) -/
def ask (env : Env) (p : Proc) (now : Nat) (e : DEv) : Option TxAns :=
  if p.engine then toAns (onTXChecker (env.checkers now) (Reg.after p.hist) (env.view e)).1 else none

/-- the body of the loop in `Start` (`eventbus/mysql/eventbus.go:749-762`): transactions first, their panics end the process; then the events if there is a callback -/
def tick (env : Env) (now : Nat) (ns : Nat → Nat) (p : Proc) : Proc :=
  match BusLife.handleTxsP (ask env p now) env.svc now ns p.db with
  | none => { p with alive := false }
  | some db1 => if p.engine then { p with db := (handleEvents env.cfg env.svc now (ans env p now) db1).1 } else { p with db := db1 }

/-- What happens: `NewEngine`, a registration, a tick, what other processes do, a new start of this one (`example/main.go:46-69`, `eventbus/mysql/eventbus.go:745-777`). -/
inductive Act where
  | engine
  | register (c : RegCall)
  | tick (now : Nat) (ns : Nat → Nat)
  | op (o : Op)
  | restart

/-- a step (`engine.go:437-468`, `event.go:95-156`, `eventbus/mysql/eventbus.go:745-777`); a process that crashed does nothing -/
def Act.apply (env : Env) (p : Proc) : Act → Proc
  | .engine => if p.alive then { p with engine := true } else p
  | .register c => if p.alive then { p with hist := p.hist ++ [c] } else p
  | .tick now ns => if p.alive then Startup.tick env now ns p else p
  | .op o => { p with db := o.apply p.db }
  | .restart => { p with engine := false, hist := [], alive := true }

/-- Auxiliary of the model: a history (of the steps of `eventbus/mysql/eventbus.go:745-777` and the others) -/
def play (env : Env) (p : Proc) (acts : List Act) : Proc := acts.foldl (Act.apply env) p

end Ddd.Startup
