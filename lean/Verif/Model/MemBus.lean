import Mathlib.Data.List.Basic
/-!
# Memory event bus

Models `/repo/eventbus/mem/eventbus.go`: a buffered channel, any number of goroutines in `Dispatch`, one consumer goroutine (`once`). Events are values of any type `E`, senders (calls of `Dispatch`) are numbered.
-/
namespace Ddd.MemBus

/-- What was observable, latest first: `Dispatch` is called; an event of a call entered the channel; a `Dispatch` returned; the callback was called; it returned (`eventbus.go:40-56`). -/
inductive Log (E : Type) where
  | dispatched (call : Nat) (es : List E)
  | sent (call : Nat) (e : E)
  | returned (call : Nat)
  | handled (call : Nat) (e : E)
  | finished
  deriving DecidableEq

/-- The channel, the calls of `Dispatch`, the consumer (`eventbus/mem/eventbus.go:24-64`). -/
structure State (E : Type) where
  /-- the channel, oldest first; every event remembers its call -/
  buf : List (Nat × E)
  /-- calls of `Dispatch` under way: number and events still to send -/
  calls : List (Nat × List E)
  nextCall : Nat
  /-- the consumer has been started (`eventbus.go:60-63`) -/
  started : Bool
  /-- the callback is being called -/
  busy : Bool
  log : List (Log E)

/-- The lines of `eventbus/mem/eventbus.go` are with the constructors. -/
inductive Step {E : Type} [DecidableEq E] (cap : Nat) : State E → State E → Prop
  /-- a call of `Dispatch` begins (`eventbus.go:38`) -/
  | dispatch (s es) : Step cap s { s with calls := (s.nextCall, es) :: s.calls, nextCall := s.nextCall + 1, log := .dispatched s.nextCall es :: s.log }
  /-- `e.ch <- evt` into the buffer; blocks while it is full (`eventbus.go:40`) -/
  | send (s n e es) (h : (n, e :: es) ∈ s.calls) (hc : s.buf.length < cap) :
      Step cap s { s with calls := (n, es) :: s.calls.erase (n, e :: es), buf := s.buf ++ [(n, e)], log := .sent n e :: s.log }
  /-- `e.ch <- evt` directly to the waiting consumer (only then possible when the channel is unbuffered; with a buffer the consumer waits only when it is empty) -/
  | direct (s n e es) (h : (n, e :: es) ∈ s.calls) (hb : s.buf = []) (hs : s.started = true) (hi : s.busy = false) :
      Step cap s { s with calls := (n, es) :: s.calls.erase (n, e :: es), busy := true, log := .handled n e :: .sent n e :: s.log }
  /-- `Dispatch` returns nil (`eventbus.go:42`) -/
  | ret (s n) (h : (n, []) ∈ s.calls) : Step cap s { s with calls := s.calls.erase (n, []), log := .returned n :: s.log }
  /-- `Start` (`eventbus.go:49-64`) -/
  | start (s) : Step cap s { s with started := true }
  /-- the consumer takes the oldest event and calls the callback (`eventbus.go:53-54`) -/
  | take (s n e rest) (h : s.buf = (n, e) :: rest) (hs : s.started = true) (hi : s.busy = false) :
      Step cap s { s with buf := rest, busy := true, log := .handled n e :: s.log }
  /-- the callback returned, whatever it returned (`eventbus.go:54`); nothing else happens, also when the context is done (`eventbus.go:55-56`: `break` leaves only the `select`) -/
  | done (s) (h : s.busy = true) : Step cap s { s with busy := false, log := .finished :: s.log }

/-- After `NewEventBus` (`eventbus/mem/eventbus.go`), before any call. -/
def State.init {E : Type} : State E := { buf := [], calls := [], nextCall := 0, started := false, busy := false, log := [] }

/-- Auxiliary of the model, executions of `eventbus/mem/eventbus.go`. -/
inductive Reachable {E : Type} [DecidableEq E] (cap : Nat) : State E → Prop
  | init : Reachable cap .init
  | step {s s'} : Reachable cap s → Step cap s s' → Reachable cap s'

end Ddd.MemBus
