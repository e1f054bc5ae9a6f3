import Verif.Model.Router
import Verif.Model.Stage
/-!
# Commands as event handlers

Models `Engine.RegisterEventHandler` (`/repo/engine.go:512-548`) on top of the router (`Model/Router.lean`) and of `Engine.Run`
(`Model/Stage.lean`). What an ordinary handler function does, what the `construct` function of a command handler makes of the event, the objects
its command works on and the answers its environment gives may all depend on everything handlers did before.
-/
namespace Ddd.Consumer
open Router (Reg Arg Ret Fn ParamTy ResTy)

/-- A handler call that is over: the call, its outcome, and the external calls of the command it ran (none for an ordinary function, or if no
command was run). (`engine.go:539-547`.) -/
structure Done where
  call : Router.Call
  ret : Ret
  trace : Trace

/-- What `construct` returns (`engine.go:540-542`): something `Stage.Run` accepts, anything else (a nil interface, a value of another type:
`Stage.Run` panics, `engine.go:831-832`), or it panics itself. -/
inductive Made where
  | cmd (c : Cmd)
  | notCommand
  | panic

/-- The dynamic type of a `construct` argument. `isFunc`, number of results, parameters. (what `Engine.RegisterEventHandler` asks of `reflect` (`engine.go:513-535`).) -/
structure CtorFn where
  ident : Nat
  isFunc : Bool
  ins : List ParamTy
  outs : Nat
  deriving DecidableEq, Repr

/-- A command handler: the type of event it wants, its `construct`, and the engine it was registered with. (the closure of `engine.go:536-547`.) -/
structure Ctor where
  ty : Nat
  construct : List Done → Arg → Made
  env : List Done → Env
  opts : Opts
  heap : List Done → Heap

/-- The outside. `ctor`: the functions made by `Engine.RegisterEventHandler`; `fnRet`: what other handler functions do; `errNo`: errors as the
router sees them. (`engine.go:536-547`, `event.go:167-191`.) -/
structure World where
  domainEvent : Nat
  decodeErr : Nat → Nat → Option Nat
  ctor : Nat → Option Ctor
  fnRet : List Done → Router.Call → Ret
  errNo : Err → Nat

/-- the closure registered by `Engine.RegisterEventHandler`: `func(ctx context.Context, evt *DomainEvent) error` (`engine.go:528`). -/
def closureFn (w : World) (ident : Nat) : Fn :=
  { ident := ident, isFunc := true, ins := [⟨true, true, false, 0⟩, ⟨false, false, true, w.domainEvent⟩], outs := [⟨true, true, false, false⟩] }

/-- `Engine.RegisterEventHandler` (`engine.go:512-528`): checks the type of `construct`, then registers the closure; `none` is a panic. -/
def engineRegister (w : World) (r : Reg) (t : Nat) (f : CtorFn) : Option Reg :=
  if !f.isFunc then none else
  match f.ins with
  | [a] => if f.outs = 1 then (if a.isPtr then Router.registerHandler r t (closureFn w f.ident) else none) else none
  | _ => none

/-- what `construct` is called with (`engine.go:529-540`): the event itself if it wants a `DomainEvent`, else the decoded payload. -/
def wanted (w : World) (ty : Nat) : Arg → Nat ⊕ Arg
  | .raw e => if ty = w.domainEvent then .inr (.raw e)
      else match w.decodeErr ty e.payload with
        | some x => .inl x
        | none => .inr (.decoded ty e.payload)
  | a => .inr a

/-- what the handler answers after `e.Run` (`engine.go:542-546`): a result without error (also `Break`) is a success. -/
def answer (w : World) : Option Result → Ret
  | none => .panic
  | some r => match r.error with
    | none => .nil
    | some e => .err (w.errNo e)

/-- the body of the closure (`engine.go:528-547`). -/
def closure (w : World) (k : Ctor) (hist : List Done) (call : Router.Call) : Done :=
  match wanted w k.ty call.arg with
  | .inl x => ⟨call, .err x, []⟩
  | .inr a =>
    match k.construct hist a with
    | .panic => ⟨call, .panic, []⟩
    | .notCommand => ⟨call, .panic, []⟩
    | .cmd c => ⟨call, answer w (run (k.env hist) k.opts c (k.heap hist)).1, (run (k.env hist) k.opts c (k.heap hist)).2.trace⟩

/-- a call of a registered function after `hist`. (`engine.go:536-547` for a command handler, `event.go:183-189` otherwise.) -/
def handle (w : World) (hist : List Done) (call : Router.Call) : Done :=
  match w.ctor call.fn with
  | some k => closure w k hist call
  | none => ⟨call, w.fnRet hist call, []⟩

/-- the history after some more calls. (Auxiliary of the model, successive handler calls of `event.go:172-190`.) -/
def handleAll (w : World) (hist : List Done) (calls : List Router.Call) : List Done :=
  calls.foldl (fun h c => h ++ [handle w h c]) hist

/-- the handler functions as the router sees them, after `hist`. (Auxiliary of the model, the functions called at `event.go:183`.) -/
def routerWorld (w : World) (hist : List Done) : Router.World :=
  { domainEvent := w.domainEvent, decodeErr := w.decodeErr, answer := fun cs c => (handle w (handleAll w hist cs) c).ret,
    check := fun _ => .panic }

/-- delivering an event: `onEvent` (`event.go:167-191`) as the event bus calls it; the outcome and the history after it. -/
def deliver (w : World) (r : Reg) (hist : List Done) (e : Router.Event) : Ret × List Done :=
  let o := Router.onEvent (routerWorld w hist) r e
  (o.1, handleAll w hist o.2)

/-- delivering events one after the other (a redelivery is one more delivery). (Auxiliary of the model, repeated calls of `onEvent` (`event.go:167-191`).) -/
def deliverAll (w : World) (r : Reg) (hist : List Done) : List Router.Event → List Done
  | [] => hist
  | e :: es => deliverAll w r (deliver w r hist e).2 es

end Ddd.Consumer
