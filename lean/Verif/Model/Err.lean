/-!
# Go error values

Models the error values of `/repo/engine.go`, `/repo/executor.go`, `/repo/event.go`.
-/

namespace Ddd

/-- The package level sentinel errors.
`engine.go:33-38` (`ErrBreak`, `ErrEntityNotFound`, `ErrEntityRepeated`, `ErrEntityLocked`),
`executor.go:33` (`ErrEntityNotRegister`), `event.go:29` (`ErrNoEventBusFound`). -/
inductive Sentinel where
  | brk | notFound | repeated | locked | notRegister | noEventBus
  deriving DecidableEq, Repr

/-- A non-nil Go `error`.
* `sent`: a sentinel value (compared by pointer in Go);
* `msg`: a fresh `fmt.Errorf` without `%w` (the number stands for the text);
* `wrap`: `fmt.Errorf("...%w", e)`, unwraps to `e`;
* `errList`: `ErrList` (`engine.go:122-130`), which has **no** `Unwrap` method;
* `join`: `errors.Join`, which has `Unwrap() []error`. -/
inductive Err where
  | sent (s : Sentinel)
  | msg (text : Nat)
  | wrap (e : Err)
  | errList (es : List Err)
  | join (es : List Err)

namespace Err

mutual
/-- `errors.Is(e, target)` for a sentinel target (Go standard library semantics): equality, or
`errors.Is` of what the error unwraps to. `ErrList` does not unwrap (`engine.go:122-130`). -/
def is (target : Sentinel) : Err → Bool
  | .sent s => decide (s = target)
  | .msg _ => false
  | .wrap e => is target e
  | .errList _ => false
  | .join es => isAny target es
/-- some member of a joined error matches (`errors.Join(...).Unwrap() []error`). (used by the calls of `errors.Is` in `engine.go:148,859`.) -/
def isAny (target : Sentinel) : List Err → Bool
  | [] => false
  | e :: es => is target e || isAny target es
end

/-- `errors.Is(ErrEntityNotRegister, e)` as written at `engine.go:859` (arguments swapped): the
chain of a sentinel consists only of itself, so this holds only if `e` *is* that sentinel. -/
def swappedIs (s : Sentinel) : Err → Bool
  | .sent s' => decide (s' = s)
  | _ => false

/-- `errors.Join(errs...)` (`engine.go:194-196`, `Repository.getError`): nil for an empty list. -/
def joinAll : List Err → Option Err
  | [] => none
  | es => some (.join es)

end Err
end Ddd
