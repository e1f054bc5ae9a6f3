import Verif.Model.Router
/-! # Specification vocabulary: event routing -/
namespace Ddd.Router

/-- `func(ctx, *T) error`-like; `T`. -/
def HandlerFor (f : Fn) (ty : Nat) : Prop :=
  f.isFunc = true ∧ ∃ c a o, f.ins = [c, a] ∧ f.outs = [o] ∧ c.implCtx = true ∧ a.isPtr = true ∧ a.elem = ty ∧ o.implErr = true

/-- the context of the bus may be passed as the first parameter, as is the case for the documented form `func(ctx context.Context, evt *T) error` -/
def TakesContext (f : Fn) : Prop := ∃ c ins, f.ins = c :: ins ∧ c.takesCtx = true

/-- the result is of a type that has a nil, as is the case for the documented form `func(ctx context.Context, evt *T) error` -/
def ReturnsNilable (f : Fn) : Prop := ∃ o outs, f.outs = o :: outs ∧ o.nilable = true

/-- exactly the documented form `func(ctx context.Context, evt *T) error` (or a nilable error type). -/
def WellTyped (f : Fn) : Prop := TakesContext f ∧ ReturnsNilable f

/-- the result is of type `TXStatus`, not of another type convertible to it -/
def ReturnsStatus (f : Fn) : Prop := ∃ o outs, f.outs = o :: outs ∧ o.isTx = true

/-- `func(*T) S` with `S` convertible to `TXStatus`. -/
def CheckerFor (f : Fn) (ty : Nat) : Prop :=
  f.isFunc = true ∧ ∃ a o, f.ins = [a] ∧ f.outs = [o] ∧ a.isPtr = true ∧ a.elem = ty ∧ o.convTx = true

/-- The handlers a history registered for type `t`, in order. -/
inductive Registered (t : Nat) : List RegCall → List (Fn × Nat) → Prop
  | none : Registered t [] []
  | here {cs fs f ty} : Registered t cs fs → HandlerFor f ty → Registered t (cs ++ [.handler t f]) (fs ++ [(f, ty)])
  | bad {cs fs f} : Registered t cs fs → (∀ ty, ¬ HandlerFor f ty) → Registered t (cs ++ [.handler t f]) fs
  | other {cs fs t' f} : Registered t cs fs → t' ≠ t → Registered t (cs ++ [.handler t' f]) fs
  | checker {cs fs t' f} : Registered t cs fs → Registered t (cs ++ [.checker t' f]) fs

/-- what a function with event type `ty` must be given for `e`, or why it can not. -/
def Given (w : World) (e : Event) (ty : Nat) (a : Arg) : Prop :=
  (ty = w.domainEvent ∧ a = .raw e) ∨ (ty ≠ w.domainEvent ∧ w.decodeErr ty e.payload = none ∧ a = .decoded ty e.payload)

end Ddd.Router
