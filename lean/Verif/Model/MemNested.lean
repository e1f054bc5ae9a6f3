import Verif.Model.MemBus
/-!
# Memory event bus with handlers that dispatch

`Model/MemBus` lets the callback return at any time. Here the callback may itself call `Dispatch` on the same bus (`/repo/eventbus/mem/eventbus.go:38-43`), as a handler does that runs a command on an engine with this
bus (`/repo/engine.go:1015-1050`): the callback runs on the consumer goroutine (`/repo/eventbus/mem/eventbus.go:50-58`), and can not return while its `Dispatch` waits for room.
-/
namespace Ddd.MemBus

/-- The bus and the call of `Dispatch` the running callback is in, if any (`eventbus/mem/eventbus.go:54`). -/
structure NState (E : Type) where
  bus : State E
  inner : Option Nat

/-- The steps of `eventbus/mem/eventbus.go`, with the callback as one of the callers of `Dispatch`. -/
inductive NStep {E : Type} [DecidableEq E] (cap : Nat) : NState E → NState E → Prop
  /-- another goroutine calls `Dispatch` (`eventbus.go:38`) -/
  | dispatch (s : NState E) (es) : NStep cap s { s with bus := { s.bus with calls := (s.bus.nextCall, es) :: s.bus.calls, nextCall := s.bus.nextCall + 1, log := .dispatched s.bus.nextCall es :: s.bus.log } }
  /-- the running callback, which is in no `Dispatch`, calls `Dispatch` (`eventbus.go:38,54`) -/
  | nested (s : NState E) (es) (hb : s.bus.busy = true) (hi : s.inner = none) :
      NStep cap s { bus := { s.bus with calls := (s.bus.nextCall, es) :: s.bus.calls, nextCall := s.bus.nextCall + 1, log := .dispatched s.bus.nextCall es :: s.bus.log }, inner := some s.bus.nextCall }
  /-- some `Dispatch`, also that of the callback: `e.ch <- evt` into the buffer (`eventbus.go:40`) -/
  | send (s : NState E) (n e es) (h : (n, e :: es) ∈ s.bus.calls) (hc : s.bus.buf.length < cap) :
      NStep cap s { s with bus := { s.bus with calls := (n, es) :: s.bus.calls.erase (n, e :: es), buf := s.bus.buf ++ [(n, e)], log := .sent n e :: s.bus.log } }
  /-- `e.ch <- evt` directly to the waiting consumer (`eventbus.go:40,53`) -/
  | direct (s : NState E) (n e es) (h : (n, e :: es) ∈ s.bus.calls) (hb : s.bus.buf = []) (hs : s.bus.started = true) (hi : s.bus.busy = false) :
      NStep cap s { s with bus := { s.bus with calls := (n, es) :: s.bus.calls.erase (n, e :: es), busy := true, log := .handled n e :: .sent n e :: s.bus.log } }
  /-- a `Dispatch` returns (`eventbus.go:42`); if it is that of the callback, the callback goes on -/
  | ret (s : NState E) (n) (h : (n, []) ∈ s.bus.calls) :
      NStep cap s { bus := { s.bus with calls := s.bus.calls.erase (n, []), log := .returned n :: s.bus.log }, inner := if s.inner = some n then none else s.inner }
  /-- `Start` (`eventbus.go:49-64`) -/
  | start (s : NState E) : NStep cap s { s with bus := { s.bus with started := true } }
  /-- the consumer takes the oldest event (`eventbus.go:53-54`) -/
  | take (s : NState E) (n e rest) (h : s.bus.buf = (n, e) :: rest) (hs : s.bus.started = true) (hi : s.bus.busy = false) :
      NStep cap s { s with bus := { s.bus with buf := rest, busy := true, log := .handled n e :: s.bus.log } }
  /-- the callback returned; it is in no `Dispatch` (`eventbus.go:54`) -/
  | done (s : NState E) (h : s.bus.busy = true) (hi : s.inner = none) : NStep cap s { s with bus := { s.bus with busy := false, log := .finished :: s.bus.log } }

/-- Executions of `eventbus/mem/eventbus.go` from `NewEventBus` on. -/
inductive NReachable {E : Type} [DecidableEq E] (cap : Nat) : NState E → Prop
  | init : NReachable cap ⟨.init, none⟩
  | step {s s'} : NReachable cap s → NStep cap s s' → NReachable cap s'

end Ddd.MemBus
