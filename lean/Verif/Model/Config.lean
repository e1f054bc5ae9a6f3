import Verif.Model.Hooks
/-!
# Options of engines and runs

Models `NewEngine`, `Engine.NewStage`, `Stage.WithOption`, the options of the package (`/repo/engine.go:291-483,605-625`) and which of them a `Stage` uses. Lockers, executors, event buses etc. are
numbers, 0 is nil; 1 is the bus `noEventBus` and the timer `noTimer` that `NewEngine` sets. Options written by users (the interface is open) are not modelled.
The calls of one process are taken one after the other; for overlapping calls see `Model/Hooks.lean`.
-/
namespace Ddd.Config
open Hooks (Mem Slice)

/-- `Options` (`engine.go:291-303`) -/
structure Options where
  withTransaction : Bool
  recursiveDelete : Bool
  dryRun : Bool
  locker : Nat
  executor : Nat
  eventPersist : Nat
  logger : Nat
  eventBus : Nat
  timer : Nat
  idGenerator : Nat
  hooks : Slice
  deriving DecidableEq, Repr

/-- the options of the package (`engine.go:308-425`) -/
inductive Opt where
  | transaction (b : Bool)
  | recursiveDelete (b : Bool)
  | dryRun (b : Bool)
  | logger (n : Nat)
  | lock (n : Nat)
  | executor (n : Nat)
  | eventBus (n : Nat)
  | timer (n : Nat)
  | eventPersist (n : Nat)
  | idGenerator (n : Nat)
  | postSave (h : Nat)
  deriving DecidableEq, Repr

/-- `ApplyToOptions` (`engine.go:310-421`) -/
def applyOpt (grow : Nat → Nat) (mo : Mem × Options) : Opt → Mem × Options
  | .transaction b => (mo.1, { mo.2 with withTransaction := b })
  | .recursiveDelete b => (mo.1, { mo.2 with recursiveDelete := b })
  | .dryRun b => (mo.1, { mo.2 with dryRun := b })
  | .logger n => (mo.1, { mo.2 with logger := n })
  | .lock n => (mo.1, { mo.2 with locker := n })
  | .executor n => (mo.1, { mo.2 with executor := n })
  | .eventBus n => (mo.1, { mo.2 with eventBus := n })
  | .timer n => (mo.1, { mo.2 with timer := n })
  | .eventPersist n => (mo.1, { mo.2 with eventPersist := n })
  | .idGenerator n => (mo.1, { mo.2 with idGenerator := n })
  | .postSave h => ((Hooks.append grow mo.1 mo.2.hooks h).1, { mo.2 with hooks := (Hooks.append grow mo.1 mo.2.hooks h).2 })

/-- `for _, opt := range opts { opt.ApplyToOptions(&options) }` (`engine.go:449-451,606-608`). -/
def applyAll (grow : Nat → Nat) (m : Mem) (o : Options) (opts : List Opt) : Mem × Options := opts.foldl (applyOpt grow) (m, o)

/-- a callback: the one of the package (`onEvent`, `onTXChecker`, `onTimer`), or one of the user (`engine.go:453-468`) -/
inductive Cb where
  | router
  | user (n : Nat)
  deriving DecidableEq, Repr

/-- What calls share: the backing arrays of hook slices, the callbacks stored in buses and timers, and which buses are transactional. (`engine.go:427-483`; the callbacks are stored by `RegisterEventHandler` (`eventbus/mysql/eventbus.go:357-359`), `RegisterEventTXChecker` (`301-304`) and `RegisterTimerHandler` (`d_timer/sql/timer.go:106-108`).) -/
structure World where
  mem : Mem
  busCb : Nat → Option Cb
  busTx : Nat → Option Cb
  timerCb : Nat → Option Cb
  isTx : Nat → Bool

/-- `eventBus.RegisterEventHandler(onEvent)` and `RegisterEventTXChecker(onTXChecker)` (`engine.go:452-456,610-615`); a method call on a nil interface panics; those of `noEventBus` do nothing (`event.go:297-299`). -/
def attachBus (w : World) (b : Nat) : Option World :=
  if b = 0 then none
  else if b = 1 then some w
  else some { w with
    busCb := fun x => if x = b then some .router else w.busCb x
    busTx := fun x => if x = b ∧ w.isTx b then some .router else w.busTx x }

/-- `timer.RegisterTimerHandler(onTimer)` (`engine.go:457-458,617-618`); `noTimer`: `timer.go:41-42` -/
def attachTimer (w : World) (t : Nat) : Option World :=
  if t = 0 then none
  else if t = 1 then some w
  else some { w with timerCb := fun x => if x = t then some .router else w.timerCb x }

/-- `Engine` (`engine.go:427-435`) -/
structure Engine where
  locker : Nat
  executor : Nat
  idGenerator : Nat
  eventBus : Nat
  timer : Nat
  logger : Nat
  options : Options
  deriving DecidableEq, Repr

/-- `Stage` (`engine.go:587-603`) without what a run changes -/
structure Stage where
  locker : Nat
  executor : Nat
  idGenerator : Nat
  eventBus : Nat
  timer : Nat
  logger : Nat
  options : Options
  deriving DecidableEq, Repr

/-- the options `NewEngine` begins with (`engine.go:438-448`) -/
def defaults (l e : Nat) : Options :=
  { withTransaction := true, recursiveDelete := false, dryRun := false, locker := l, executor := e, eventPersist := 0, logger := 1, eventBus := 1, timer := 1, idGenerator := 1, hooks := ⟨0, 0, 0⟩ }

/-- `NewEngine` (`engine.go:437-468`); no engine: it panicked. -/
def newEngine (grow : Nat → Nat) (w : World) (l e : Nat) (opts : List Opt) : World × Option Engine :=
  let (m, o) := applyAll grow w.mem (defaults l e) opts
  let w := { w with mem := m }
  match attachBus w o.eventBus with
  | none => (w, none)
  | some w =>
    match attachTimer w o.timer with
    | none => (w, none)
    | some w => (w, some { locker := o.locker, executor := o.executor, eventBus := o.eventBus, timer := o.timer, options := o, logger := o.logger, idGenerator := o.idGenerator })

/-- `NewStage` (`engine.go:470-483`) -/
def newStage (g : Engine) : Stage :=
  { locker := g.locker, executor := g.executor, eventBus := g.eventBus, timer := g.timer, idGenerator := g.idGenerator, options := g.options, logger := g.logger }

/-- `WithOption` (`engine.go:605-625`) -/
def withOption (grow : Nat → Nat) (w : World) (st : Stage) (opts : List Opt) : World × Option Stage :=
  let (m, o) := applyAll grow w.mem st.options opts
  let w := { w with mem := m }
  match attachBus w o.eventBus with
  | none => (w, none)
  | some w =>
    match attachTimer w o.timer with
    | none => (w, none)
    | some w => (w, some { options := o, eventBus := o.eventBus, locker := o.locker, executor := o.executor, timer := o.timer, logger := o.logger, idGenerator := o.idGenerator })

/-- `Engine.Run`/`RunCommand` up to `Save` (`engine.go:500-510,769-832`). `post`: `none`, the command is a function; `some l`: a command object, with its PostSave hooks (at most one). -/
def runStage (grow : Nat → Nat) (w : World) (g : Engine) (opts : List Opt) (post : Option (List Nat)) : World × Option Stage :=
  match withOption grow w (newStage g) opts with
  | (w, none) => (w, none)
  | (w, some st) =>
    match post with
    | none => (w, some st)
    | some l => withOption grow w st (l.map .postSave)

/-- the calls of a process (Calls of `engine.go:437-511` and `engine.go:605-625`) -/
inductive Op where
  | newEngine (l e : Nat) (opts : List Opt)
  /-- `Run` on engine number `i` -/
  | run (i : Nat) (opts : List Opt) (post : Option (List Nat))
  /-- the user sets the callbacks of a bus or a timer by hand -/
  | setBus (b n : Nat)
  | setTx (b n : Nat)
  | setTimer (t n : Nat)
  deriving DecidableEq, Repr

/-- What exists in a process after some calls of `engine.go:437-511`: the shared parts and the engines and stages made. -/
structure State where
  world : World
  engines : List Engine

/-- one call. `Engine.Create`, `Engine.Delete` only make a `Stage` (`engine.go:485-497`): no effect here. -/
def step (grow : Nat → Nat) (s : State) : Op → State
  | .newEngine l e opts =>
    match newEngine grow s.world l e opts with
    | (w, none) => { s with world := w }
    | (w, some g) => { world := w, engines := s.engines ++ [g] }
  | .run i opts post =>
    match s.engines[i]? with
    | none => s
    | some g => { s with world := (runStage grow s.world g opts post).1 }
  | .setBus b n => { s with world := { s.world with busCb := fun x => if x = b then some (.user n) else s.world.busCb x } }
  | .setTx b n => { s with world := { s.world with busTx := fun x => if x = b then some (.user n) else s.world.busTx x } }
  | .setTimer t n => { s with world := { s.world with timerCb := fun x => if x = t then some (.user n) else s.world.timerCb x } }

/-- A process before any call of `engine.go:437`. -/
def initial (isTx : Nat → Bool) : State :=
  { world := { mem := { cell := fun _ _ => 0, next := 1 }, busCb := fun _ => none, busTx := fun _ => none, timerCb := fun _ => none, isTx := isTx }, engines := [] }

/-- Auxiliary of the model, histories of calls of `engine.go:437-511,605-625`. -/
def exec (grow : Nat → Nat) (isTx : Nat → Bool) (ops : List Op) : State := ops.foldl (step grow) (initial isTx)

end Ddd.Config
