import Verif.Model.Bus
/-!
# The worker pool of a consumption pass

Models `dispatchEvents` (`/repo/eventbus/mysql/eventbus.go:461-485`): the scanned tuples are put into a channel which is then closed, `ConsumeConcurrent` goroutines take from it until it is empty, and the
call waits for all of them. Any schedule. A call of `handleEvent` (`eventbus.go:549-601`) is split in two: up to the call of the handler (`enter`) and from its return on (`leave`); between the two, other
workers run. The shared data `σ` and what a worker remembers `L` are arbitrary here; `busWork` below instantiates them with the tables.
-/
namespace Ddd.Pool

/-- `handleEvent` for the tuple number `i` (`eventbus/mysql/eventbus.go:549-601`): up to the call of the handler, and from its return on. -/
structure Work (σ L : Type) where
  enter : Nat → σ → L
  leave : Nat → L → σ → σ

/-- a goroutine of `eventbus/mysql/eventbus.go:471-481`: waiting at the channel, inside `handleEvent`, after its loop -/
inductive Worker (L : Type) where
  | idle
  | busy (i : Nat) (l : L)
  | gone

/-- What is observable of a pass (`eventbus/mysql/eventbus.go:478-480`): a tuple is being handled from now on; its handling is over. -/
inductive Log where
  | begun (i : Nat)
  | ended (i : Nat)
  deriving DecidableEq, Repr

/-- `next`: the first tuple still in the channel (`eventbus/mysql/eventbus.go:462-466`); `toSpawn`: iterations of the loop still to come (`469`); the goroutines started; the shared data; has `dispatchEvents` returned
(`483-484`)? -/
structure State (σ L : Type) where
  next : Nat
  toSpawn : Nat
  ws : List (Worker L)
  data : σ
  log : List Log
  returned : Bool

/-- The call of `dispatchEvents` with `ConsumeConcurrent = k`: the loop `for i := 0; i < k; i++` (`eventbus/mysql/eventbus.go:469`) has no iteration if `k` is not positive. -/
def State.init {σ L : Type} (k : Int) (d : σ) : State σ L := { next := 0, toSpawn := k.toNat, ws := [], data := d, log := [], returned := false }

/-- One step of a pass over `n` tuples (`eventbus/mysql/eventbus.go:461-485`; lines with the constructors). -/
inductive Step {σ L : Type} (w : Work σ L) (n : Nat) : State σ L → State σ L → Prop
  /-- `wg.Add(1); go func() ...` (`eventbus.go:470-471`) -/
  | spawn {s m} : s.toSpawn = m + 1 → Step w n s { s with toSpawn := m, ws := s.ws ++ [.idle] }
  /-- a worker receives from the channel and calls `handleEvent` (`eventbus.go:478-479`) -/
  | take {s a b} : s.ws = a ++ .idle :: b → s.next < n →
      Step w n s { s with next := s.next + 1, ws := a ++ .busy s.next (w.enter s.next s.data) :: b, log := s.log ++ [.begun s.next] }
  /-- the handler returned or panicked (recovered, `eventbus.go:563-569`); `handleEvent` finishes, whatever its result (`eventbus.go:476`) -/
  | finish {s a b i l} : s.ws = a ++ .busy i l :: b → Step w n s { s with ws := a ++ .idle :: b, data := w.leave i l s.data, log := s.log ++ [.ended i] }
  /-- the channel is empty and closed: the loop of a worker ends, `wg.Done()` (`eventbus.go:472,478`) -/
  | leave {s a b} : s.ws = a ++ .idle :: b → n ≤ s.next → Step w n s { s with ws := a ++ .gone :: b }
  /-- `wg.Wait()` returns: all were started and all are done (`eventbus.go:483`) -/
  | ret {s} : s.toSpawn = 0 → (∀ x ∈ s.ws, x = .gone) → s.returned = false → Step w n s { s with returned := true }

/-- Auxiliary of the model, executions of `eventbus/mysql/eventbus.go:461-485` with the number of steps -/
inductive Exec {σ L : Type} (w : Work σ L) (n : Nat) : State σ L → Nat → State σ L → Prop
  | nil (s) : Exec w n s 0 s
  | snoc {s s1 s2 m} : Exec w n s m s1 → Step w n s1 s2 → Exec w n s (m + 1) s2

/-- what a worker remembers between the two halves: the row is gone or was handled (`eventbus/mysql/eventbus.go:554-561`), the predecessor is not ready (`583-588`), or the handler is called (`590`) -/
inductive Seen where
  | skip
  | notReady
  | call
  deriving DecidableEq, Repr

/-- `handleEvent` (`eventbus/mysql/eventbus.go:549-601`) in two halves: lock the row, check the status and the predecessor; call, note the outcome, save. -/
def busWork (c : Bus.Cfg) (svc start now : Nat) (ans : Nat → Bus.DEv → Bus.Ret) (ts : List Bus.Tuple) : Work Bus.DB Seen where
  enter i db :=
    match ts[i]? with
    | none => .skip
    | some t =>
      if db.recs.any fun x => x.id == t.r.id then
        if t.r.status ≠ .init then .skip
        else if Bus.mayCall db svc start t.e then .call else .notReady
      else .skip
  leave i l db :=
    match ts[i]?, l with
    | some t, .call => Bus.saveRec db (Bus.afterCall c.strategy now t.r (ans i t.e.ev))
    | some t, .notReady => Bus.saveRec db t.r
    | _, _ => db

end Ddd.Pool
