import Verif.Model.Config
/-!
# Specification vocabulary: options
-/
namespace Ddd.Config

/-- what a run is configured with -/
structure Conf where
  withTransaction : Bool
  recursiveDelete : Bool
  dryRun : Bool
  locker : Nat
  executor : Nat
  eventPersist : Nat
  logger : Nat
  eventBus : Nat
  timer : Nat
  idGenerator : Nat
  hooks : List Nat
  deriving DecidableEq, Repr

/-- what the last option setting something sets, or the default -/
def last {α : Type} (d : α) (pick : Opt → Option α) (opts : List Opt) : α := (opts.filterMap pick).getLast?.getD d

/-- what an option sets -/
def Opt.withTransaction? : Opt → Option Bool
  | .transaction x => some x
  | _ => none
def Opt.recursiveDelete? : Opt → Option Bool
  | .recursiveDelete x => some x
  | _ => none
def Opt.dryRun? : Opt → Option Bool
  | .dryRun x => some x
  | _ => none
def Opt.locker? : Opt → Option Nat
  | .lock x => some x
  | _ => none
def Opt.executor? : Opt → Option Nat
  | .executor x => some x
  | _ => none
def Opt.eventPersist? : Opt → Option Nat
  | .eventPersist x => some x
  | _ => none
def Opt.logger? : Opt → Option Nat
  | .logger x => some x
  | _ => none
def Opt.eventBus? : Opt → Option Nat
  | .eventBus x => some x
  | _ => none
def Opt.timer? : Opt → Option Nat
  | .timer x => some x
  | _ => none
def Opt.idGenerator? : Opt → Option Nat
  | .idGenerator x => some x
  | _ => none
def Opt.hooks? : Opt → Option Nat
  | .postSave x => some x
  | _ => none

/-- what a list of options means: for each setting the last option counts; the hooks are all of them in order -/
def meaning (l e : Nat) (opts : List Opt) : Conf where
  withTransaction := last true Opt.withTransaction? opts
  recursiveDelete := last false Opt.recursiveDelete? opts
  dryRun := last false Opt.dryRun? opts
  locker := last l Opt.locker? opts
  executor := last e Opt.executor? opts
  eventPersist := last 0 Opt.eventPersist? opts
  logger := last 1 Opt.logger? opts
  eventBus := last 1 Opt.eventBus? opts
  timer := last 1 Opt.timer? opts
  idGenerator := last 1 Opt.idGenerator? opts
  hooks := opts.filterMap Opt.hooks?

/-- what a `Stage` goes by: locker, executor, bus, timer, id generator and logger are read from its fields (`engine.go:912,1022-1049,1195-1281,1220-1232`), the rest from its options (`engine.go:890,1003,1017,1020,1148,1183,1290,1299-1303`) -/
def Stage.uses (st : Stage) (m : Hooks.Mem) : Conf :=
  { withTransaction := st.options.withTransaction, recursiveDelete := st.options.recursiveDelete, dryRun := st.options.dryRun, eventPersist := st.options.eventPersist,
    locker := st.locker, executor := st.executor, logger := st.logger, eventBus := st.eventBus, timer := st.timer, idGenerator := st.idGenerator, hooks := m.read st.options.hooks }

/-- the bus and the timer are not nil -/
def Conf.sound (c : Conf) : Prop := c.eventBus ≠ 0 ∧ c.timer ≠ 0

instance (c : Conf) : Decidable c.sound := by unfold Conf.sound; infer_instance

/-- the engines that calls create, with the arguments they were created with: those whose bus and timer are not nil -/
def created : List Op → List (Nat × Nat × List Opt)
  | [] => []
  | .newEngine l e opts :: ops => if (meaning l e opts).sound then (l, e, opts) :: created ops else created ops
  | _ :: ops => created ops

end Ddd.Config
