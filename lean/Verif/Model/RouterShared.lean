import Verif.Model.Router
/-!
# Event routing with handlers that change the event

`/repo/event.go:167-191` hands the very `*DomainEvent` it was called with to every handler that takes a `*DomainEvent`; such a handler can write to it. `Model/Router` leaves this out. Here it is: `edit` says what
a handler does to the event object while it runs. Handlers that take their own event type get a fresh object decoded from the payload (`event.go:177-180`) and can not reach the event.
-/
namespace Ddd.Router

/-- What the handlers do to the event they are given by pointer (`event.go:175,183`): a function of the calls made before, the call, and the event. -/
abbrev Edits := List Call → Call → Event → Event

/-- The event object after a call of a handler (`event.go:174-183`). -/
def Edits.done (edit : Edits) (cs : List Call) (c : Call) (e : Event) : Event :=
  match c.arg with
  | .raw _ => edit cs c e
  | .decoded _ _ => e

/-- the loop of `onEvent` (`event.go:173-188`); the payload is read anew for every handler (`event.go:178`). The result also has the event object at the end. -/
def onEventLoopS (w : World) (edit : Edits) : Event → List Handler → List Call → Ret × List Call × Event
  | e, [], cs => (.nil, cs, e)
  | e, h :: hs, cs =>
    match arg w h.eventType e with
    | .inl x => (.err x, cs, e)
    | .inr a =>
      if !h.fn.takesCtx then (.panic, cs, e) else
      match w.answer cs ⟨h.fn.ident, a⟩ with
      | .panic => (.panic, cs ++ [⟨h.fn.ident, a⟩], edit.done cs ⟨h.fn.ident, a⟩ e)
      | .nil => if !h.fn.nilable then (.panic, cs ++ [⟨h.fn.ident, a⟩], edit.done cs ⟨h.fn.ident, a⟩ e) else onEventLoopS w edit (edit.done cs ⟨h.fn.ident, a⟩ e) hs (cs ++ [⟨h.fn.ident, a⟩])
      | .err x => if !h.fn.nilable then (.panic, cs ++ [⟨h.fn.ident, a⟩], edit.done cs ⟨h.fn.ident, a⟩ e) else (.err x, cs ++ [⟨h.fn.ident, a⟩], edit.done cs ⟨h.fn.ident, a⟩ e)

/-- `onEvent` (`event.go:167-191`): the handlers are looked up once, by the type the event has at the beginning (`event.go:170`). -/
def onEventS (w : World) (edit : Edits) (r : Reg) (e : Event) : Ret × List Call × Event := onEventLoopS w edit e (r.handlers e.typ) []

end Ddd.Router
