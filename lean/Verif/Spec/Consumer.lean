import Verif.Model.Consumer
import Verif.Spec.Trace
import Verif.Spec.Router
/-!
# Specification vocabulary: commands as event handlers
-/
namespace Ddd.Consumer
open Spec
open Router (Reg Arg Ret)

/-- `construct` has the documented form: a function of one pointer with one result. -/
def CtorFn.Ok (f : CtorFn) : Prop := f.isFunc = true ∧ (∃ a, f.ins = [a] ∧ a.isPtr = true) ∧ f.outs = 1

/-- The handlers for events of type `t` are the command handlers `ks` (identity, handler), in this order. -/
def Commands (w : World) (r : Reg) (t : Nat) (ks : List (Nat × Ctor)) : Prop :=
  r.handlers t = ks.map (fun k => ⟨closureFn w k.1, w.domainEvent⟩) ∧ ∀ k ∈ ks, w.ctor k.1 = some k.2

/-- what `construct` is to be given for the event `e`: the event itself, or its payload decoded as the wanted type. -/
def Wants (w : World) (k : Ctor) (e : Router.Event) (a : Arg) : Prop :=
  (k.ty = w.domainEvent ∧ a = .raw e) ∨ (k.ty ≠ w.domainEvent ∧ w.decodeErr k.ty e.payload = none ∧ a = .decoded k.ty e.payload)

/-- Run after `hist` for event `e`, the handler runs the command `c`. -/
def Runs (w : World) (k : Ctor) (hist : List Done) (e : Router.Event) (c : Cmd) : Prop :=
  ∃ a, Wants w k e a ∧ k.construct hist a = .cmd c

/-- the handler's command `c` ends with result `r` after the external calls `t` -/
def Ends (k : Ctor) (hist : List Done) (c : Cmd) (r : Option Result) (t : Trace) : Prop :=
  (run (k.env hist) k.opts c (k.heap hist)).1 = r ∧ (run (k.env hist) k.opts c (k.heap hist)).2.trace = t

/-- the handler does its work for `e`: its command ends without error, after the external calls `t` -/
def Succeeds (w : World) (k : Ctor) (hist : List Done) (e : Router.Event) (t : Trace) : Prop :=
  ∃ c r, Runs w k hist e c ∧ Ends k hist c (some r) t ∧ r.error = none

/-- the handler fails for `e` with outcome `out`, after the external calls `t` of its command (none if there is no command) -/
inductive Fails (w : World) (k : Ctor) (hist : List Done) (e : Router.Event) : Ret → Trace → Prop
  /-- the payload can not be decoded -/
  | decode {x} : k.ty ≠ w.domainEvent → w.decodeErr k.ty e.payload = some x → Fails w k hist e (.err x) []
  /-- `construct` panics or returns something that is not a command -/
  | construct {a} : Wants w k e a → (∀ c, k.construct hist a ≠ .cmd c) → Fails w k hist e .panic []
  /-- the command returns an error -/
  | error {c r x t} : Runs w k hist e c → Ends k hist c (some r) t → r.error = some x → Fails w k hist e (.err (w.errNo x)) t
  /-- the command panics -/
  | panic {c t} : Runs w k hist e c → Ends k hist c none t → Fails w k hist e .panic t

/-- all external calls of some handler runs -/
def traceOf (ds : List Done) : Trace := ds.flatMap Done.trace

/-- `Commit` reported a failure -/
def Unsure (t : Trace) : Prop := ∃ st, st ≠ .ok ∧ Call.commit st ∈ t

/-- The durable effect of a list of handler runs: those that committed have all their writes applied, in order; those that did not commit have no
effect; if `Commit` reported a failure, it is one or the other. -/
inductive Effects {D : Type} (apply : Action → D → D) : D → List Done → D → Prop
  | nil (S) : Effects apply S [] S
  | committed {S S1 S2 d ds} : Call.commit .ok ∈ d.trace → Writes apply S d.trace S1 → Effects apply S1 ds S2 → Effects apply S (d :: ds) S2
  | nothing {S S2 d ds} : Call.commit .ok ∉ d.trace → Effects apply S ds S2 → Effects apply S (d :: ds) S2
  | unsure {S S1 S2 d ds} : Unsure d.trace → Writes apply S d.trace S1 → Effects apply S1 ds S2 → Effects apply S (d :: ds) S2

/-- the handler run became durable -/
def Done.committed (d : Done) : Bool := decide (Call.commit .ok ∈ d.trace)

end Ddd.Consumer
