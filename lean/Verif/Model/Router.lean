import Verif.Model.Err
/-!
# Event routing

Models `/repo/event.go:80-215` (`RegisterEventHandler`, `RegisterEventTXChecker`, `onEvent`, `onTXChecker`). The registries are guarded by a mutex
and `append` never changes an existing prefix, so a callback works on the registrations made before its lookup; registration and lookup are
therefore single steps. User functions may be stateful: their answer is given by an oracle that sees all calls made before.
-/
namespace Ddd.Router

/-- What the registration code asks about a parameter type of a function (`event.go:103,109-113,147-151`). `elem` is the type pointed to. -/
structure ParamTy where
  /-- `Implements(ctxType)` -/
  implCtx : Bool
  /-- the `ctx` passed by the bus is assignable to it (`reflect.Value.Call` panics otherwise) -/
  takesCtx : Bool
  isPtr : Bool
  elem : Nat
  deriving DecidableEq, Repr

/-- What the code asks about a result type (`event.go:106,144,185,214`). -/
structure ResTy where
  /-- `Implements(errType)` -/
  implErr : Bool
  /-- `reflect.Value.IsNil` is defined for values of it -/
  nilable : Bool
  /-- `ConvertibleTo(txStatusType)` -/
  convTx : Bool
  /-- it is `TXStatus` itself -/
  isTx : Bool
  deriving DecidableEq, Repr

/-- The dynamic type of a registered function value, and its identity. (what the registration functions ask of `reflect` (`event.go:95-117,129-156`).) -/
structure Fn where
  ident : Nat
  isFunc : Bool
  ins : List ParamTy
  outs : List ResTy
  deriving DecidableEq, Repr

/-- `eventHandler` (`event.go:84-87`) -/
structure Handler where
  fn : Fn
  eventType : Nat
  deriving DecidableEq, Repr

/-- `eventRouter`, `eventTXCheckerRouter` (`event.go:81-82`) -/
structure Reg where
  handlers : Nat → List Handler
  checker : Nat → Option Handler

/-- `event.go:81-82` -/
def Reg.empty : Reg := { handlers := fun _ => [], checker := fun _ => none }

/-- `RegisterEventHandler` (`event.go:95-118`); `none` is a panic, which changes nothing. -/
def registerHandler (r : Reg) (t : Nat) (f : Fn) : Option Reg :=
  if !f.isFunc then none else
  match f.ins, f.outs with
  | [c, a], [o] =>
    if !c.implCtx then none
    else if !o.implErr then none
    else if !a.isPtr then none
    else some { r with handlers := fun x => if x = t then r.handlers t ++ [⟨f, a.elem⟩] else r.handlers x }
  | _, _ => none

/-- `RegisterEventTXChecker` (`event.go:129-156`) -/
def registerChecker (r : Reg) (t : Nat) (f : Fn) : Option Reg :=
  match r.checker t with
  | some _ => none
  | none =>
    if !f.isFunc then none else
    match f.ins, f.outs with
    | [a], [o] =>
      if !o.convTx then none
      else if !a.isPtr then none
      else some { r with checker := fun x => if x = t then some ⟨f, a.elem⟩ else r.checker x }
    | _, _ => none

/-- A call of a registration function; the program may recover from its panic and go on. (`event.go:95-117,129-156`.) -/
inductive RegCall where
  | handler (t : Nat) (f : Fn)
  | checker (t : Nat) (f : Fn)
  deriving DecidableEq, Repr

/-- `event.go:95-117,129-156`; a registration that panics changes nothing. -/
def Reg.step (r : Reg) : RegCall → Reg
  | .handler t f => (registerHandler r t f).getD r
  | .checker t f => (registerChecker r t f).getD r

/-- the registries after a history of registration calls. (`event.go:95-156`.) -/
def Reg.after (cs : List RegCall) : Reg := cs.foldl Reg.step Reg.empty

/-- `DomainEvent` (`event.go:222-229`) as far as the router looks at it. -/
structure Event where
  typ : Nat
  payload : Nat
  deriving DecidableEq, Repr

/-- What a function is called with: the event itself or its decoded payload. (`event.go:174-182,201-209`.) -/
inductive Arg where
  | raw (e : Event)
  | decoded (ty : Nat) (payload : Nat)
  deriving DecidableEq, Repr

/-- `event.go:183,210`: a call of a registered function with the event as argument. -/
structure Call where
  fn : Nat
  arg : Arg
  deriving DecidableEq, Repr

/-- what a handler does (`event.go:183-189`) -/
inductive Ret where
  | nil
  | err (e : Nat)
  | panic
  deriving DecidableEq, Repr

/-- what a checker does: the number of its `TXStatus`, or a panic (`event.go:210-214`) -/
inductive TxRet where
  | status (n : Nat)
  | panic
  deriving DecidableEq, Repr

/-- The outside: JSON decoding (`none`: fails, with error `decodeErr`), and the functions. (`event.go:174-189,201-214`.) -/
structure World where
  /-- the type `DomainEvent` (`event.go:91`) -/
  domainEvent : Nat
  decodeErr : Nat → Nat → Option Nat
  answer : List Call → Call → Ret
  check : Call → TxRet

/-- the argument for a function with event type `ty` (`event.go:174-182,203-211`) -/
def arg (w : World) (ty : Nat) (e : Event) : Nat ⊕ Arg :=
  if ty = w.domainEvent then .inr (.raw e)
  else match w.decodeErr ty e.payload with
    | some x => .inl x
    | none => .inr (.decoded ty e.payload)

/-- does `h.f.Call([ctx, bizEvt])` accept its arguments, and can its result be asked `IsNil` (`event.go:184-185`)? -/
def Fn.takesCtx (f : Fn) : Bool := match f.ins with | c :: _ => c.takesCtx | [] => false
/-- `IsNil` of the first result is possible (`event.go:184`). -/
def Fn.nilable (f : Fn) : Bool := match f.outs with | o :: _ => o.nilable | [] => false
/-- is `outs[0].Interface().(TXStatus)` possible (`event.go:214`)? -/
def Fn.returnsTx (f : Fn) : Bool := match f.outs with | o :: _ => o.isTx | [] => false

/-- the loop of `onEvent` (`event.go:173-188`) -/
def onEventLoop (w : World) (e : Event) : List Handler → List Call → Ret × List Call
  | [], cs => (.nil, cs)
  | h :: hs, cs =>
    match arg w h.eventType e with
    | .inl x => (.err x, cs)
    | .inr a =>
      if !h.fn.takesCtx then (.panic, cs) else
      match w.answer cs ⟨h.fn.ident, a⟩ with
      | .panic => (.panic, cs ++ [⟨h.fn.ident, a⟩])
      | .nil => if !h.fn.nilable then (.panic, cs ++ [⟨h.fn.ident, a⟩]) else onEventLoop w e hs (cs ++ [⟨h.fn.ident, a⟩])
      | .err x => if !h.fn.nilable then (.panic, cs ++ [⟨h.fn.ident, a⟩]) else (.err x, cs ++ [⟨h.fn.ident, a⟩])

/-- `onEvent` (`event.go:167-191`): its outcome and the calls it makes. -/
def onEvent (w : World) (r : Reg) (e : Event) : Ret × List Call := onEventLoop w e (r.handlers e.typ) []

/-- `TXRollBack` (`event.go:59-63`) -/
def txRollBack : Nat := 2

/-- `onTXChecker` (`event.go:193-215`) -/
def onTXChecker (w : World) (r : Reg) (e : Event) : TxRet × List Call :=
  match r.checker e.typ with
  | none => (.status txRollBack, [])
  | some h =>
    match arg w h.eventType e with
    | .inl _ => (.status txRollBack, [])
    | .inr a =>
      match w.check ⟨h.fn.ident, a⟩ with
      | .panic => (.panic, [⟨h.fn.ident, a⟩])
      | .status n => if h.fn.returnsTx then (.status n, [⟨h.fn.ident, a⟩]) else (.panic, [⟨h.fn.ident, a⟩])

end Ddd.Router
