import Verif.Model.BusLTS
import Verif.Model.Startup
/-!
# Several instances of one service, not all with the same program

A service usually runs as several processes with the same `Options.ServiceName`, which share the work (`/repo/eventbus/mysql/eventbus.go:603-633`); during a deployment some run the old program and some the new one. Composes all
interleavings of the MySQL bus (`Model/BusLTS.lean`) with one registry of handlers per instance (`Model/Router.lean`, `/repo/event.go:95-191`: the registry is a variable of the process).
-/
namespace Ddd.Fleet
open Bus Router

/-- A call of the callback that returned (`eventbus/mysql/eventbus.go:590`): which instance made it, for which delivery, with which registrations, and how the user's functions behaved. -/
structure Entry where
  inst : Nat
  svc : Nat
  eid : Nat
  e : EvRow
  hist : List RegCall
  w : World

/-- The bus, the registrations of the instances (`event.go:95-156`), the calls under way with the registrations they found (`event.go:169-171`), and those that returned. -/
structure FState where
  bus : State
  regs : Nat → List RegCall
  running : List (Job × Nat × List RegCall)
  seen : List Entry

/-- does not concern the callback (Auxiliary of the model: the callback is called at `eventbus/mysql/eventbus.go:590`) -/
def silent : Log → Bool
  | .called _ _ _ _ => false
  | .returned _ _ _ _ _ _ => false
  | _ => true

/-- What an instance's callback returns for an event (`event.go:167-191`). `view`: type and payload of an event. -/
def answer (view : DEv → Event) (en : Entry) : Router.Ret × List Call := onEvent en.w (Reg.after en.hist) (view en.e.ev)

/-- All steps. `svcOf i`: the service name of instance `i`. (`eventbus/mysql/eventbus.go:549-601`, `event.go:95-191`.) -/
inductive FStep (c : Cfg) (pol : Pol) (svcOf : Nat → Nat) (view : DEv → Event) : FState → FState → Prop
  /-- anything but calls and returns of callbacks -/
  | bus (f : FState) (s' : State) (l : List Log) (h : Step c pol f.bus s') (hl : s'.log = l ++ f.bus.log) (hq : ∀ x ∈ l, silent x = true) : FStep c pol svcOf view f { f with bus := s' }
  /-- `event.go:95-156` -/
  | register (f : FState) (i : Nat) (rc : RegCall) : FStep c pol svcOf view f { f with regs := fun k => if k = i then f.regs i ++ [rc] else f.regs k }
  /-- the process ended and was started again, with the old program or a new one -/
  | restart (f : FState) (i : Nat) : FStep c pol svcOf view f { f with regs := fun k => if k = i then [] else f.regs k, running := f.running.filter fun x => decide (x.2.1 ≠ i) }
  /-- `eventbus/mysql/eventbus.go:590`, `event.go:169-171`: an instance of the service enters the callback, which reads the registry -/
  | call (f : FState) (i : Nat) (j : Job) (s' : State) (hi : svcOf i = j.svc) (h : Step c pol f.bus s') (hb : s'.busy = j :: f.bus.busy)
      (hl : s'.log = .called j.svc j.t.r.eventId j.t.e f.bus.now :: f.bus.log) : FStep c pol svcOf view f { f with bus := s', running := (j, i, f.regs i) :: f.running }
  /-- `event.go:173-190`, `eventbus/mysql/eventbus.go:563-600`: the callback returned what the registered functions make it return -/
  | finish (f : FState) (i : Nat) (j : Job) (hist : List RegCall) (w : World) (s' : State) (t : Nat) (b : Bool) (hr : (j, i, hist) ∈ f.running) (h : Step c pol f.bus s')
      (hl : s'.log = .returned j.svc j.t.r.eventId j.t.e (Startup.toRet (answer view ⟨i, j.svc, j.t.r.eventId, j.t.e, hist, w⟩).1) t b :: f.bus.log) :
      FStep c pol svcOf view f { f with bus := s', running := f.running.filter (fun x => decide (x.1 ≠ j)), seen := ⟨i, j.svc, j.t.r.eventId, j.t.e, hist, w⟩ :: f.seen }

/-- The start: empty tables, no registrations. (`eventbus/mysql/eventbus.go`: before any call.) -/
def FState.init : FState := ⟨.init, fun _ => [], [], []⟩

/-- States that can occur. (Auxiliary of the model, executions of `eventbus/mysql/eventbus.go`.) -/
inductive FReachable (c : Cfg) (pol : Pol) (svcOf : Nat → Nat) (view : DEv → Event) : FState → Prop
  | init : FReachable c pol svcOf view .init
  | step {f f'} : FReachable c pol svcOf view f → FStep c pol svcOf view f f' → FReachable c pol svcOf view f'

end Ddd.Fleet
