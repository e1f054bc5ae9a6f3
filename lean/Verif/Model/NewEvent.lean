import Verif.Model.Bus
/-!
# Construction of domain events

Models `NewDomainEvent` and its options (`/repo/event.go:34-55,222-258`). The user's event type, its JSON encoding and its methods are arbitrary.
-/
namespace Ddd.NewEvent
open Bus

/-- `EventOption` (`event.go:44-47`) -/
structure EventOption where
  sendType : SendType
  sendTime : Nat

/-- `WithSendType` (`event.go:51-55`) -/
def withSendType (t : SendType) : EventOption → EventOption := fun o => { o with sendType := t }

/-- a user's own option that sets `SendTime` (`event.go:46,49`); the repository has none -/
def withSendTime (t : Nat) : EventOption → EventOption := fun o => { o with sendTime := t }

/-- A user's event type (`IEvent`, `event.go:217-220`) with what `json.Marshal` makes of its values; `none` is an error. -/
structure Class (E : Type) where
  type : E → Nat
  sender : E → Nat
  json : E → Option Nat

/-- `DomainEvent` (`event.go:222-229`) -/
structure DomainEvent where
  id : Nat
  type : Nat
  sendType : SendType
  sender : Nat
  payload : Nat
  created : Nat
  deriving DecidableEq, Repr

/-- `NewDomainEvent` (`event.go:239-258`) when `xid.New()` gives `id` and the clock says `now`; `none` is the panic. -/
def newDomainEvent {E : Type} (k : Class E) (id now : Nat) (e : E) (opts : List (EventOption → EventOption)) : Option DomainEvent :=
  let opt := opts.foldl (fun o f => f o) ⟨.normal, 0⟩
  match k.json e with
  | none => none
  | some p => some ⟨id, k.type e, opt.sendType, k.sender e, p, now⟩

/-- the event as the bus keeps it (`eventbus/mysql/po.go:135-142`): `body` stands for type and payload. -/
def DomainEvent.stored (body : Nat → Nat → Nat) (d : DomainEvent) : DEv := ⟨d.id, d.sender, d.sendType, d.created, body d.type d.payload⟩

end Ddd.NewEvent
