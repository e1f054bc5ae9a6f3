import Verif.Model.Stage
/-!
# Commands waiting for each other's locks

Any number of commands over a lock service that makes a caller wait while somebody else holds the key (or refuses it after a while). What a command requests, and in
which order, is `runOnLock` (`/repo/engine.go:1208-1242`): sorted, repetitions rejected before any request. A command may run further commands inside its `Main`, which
then request their keys while the outer keys are held.
-/
namespace Ddd.Waiting

/-- A command: the keys its `Init` returns, and the commands its `Main` runs one after the other. (`engine.go:809-834,1208-1242`.) -/
inductive Cmd where
  | mk (keys : List Nat) (inner : List Cmd)

/-- What a process running a command does with locks. (`engine.go:1220,1231`.) -/
inductive Act where
  | lock (k : Nat)
  | unlock (k : Nat)
  deriving DecidableEq, Repr

mutual
/-- `Save` of a command with its nested commands, when every lock is obtained (`engine.go:1210-1241`: sort, reject repetitions, lock in order, run, deferred unlock in the same order). -/
def Cmd.acts : Cmd → List Act
  | .mk keys inner =>
    let ks := keys.insertionSort (· ≤ ·)
    if hasAdjacentDup ks then [] else ks.map .lock ++ actsList inner ++ ks.map .unlock
/-- The nested commands of a `Main`, one after the other (`engine.go:508-510` called from user code). -/
def actsList : List Cmd → List Act
  | [] => []
  | c :: cs => c.acts ++ actsList cs
end

/-- `holder k`: the process holding `k`; `rest i`: what process `i` still has to do. (The locks of `engine.go:1208-1242`.) -/
structure State where
  holder : Nat → Option Nat
  rest : Nat → List Act

/-- One step of process `i`: a lock is obtained only if the key is free. (`engine.go:1220,1231`.) -/
inductive Step : State → Nat → State → Prop
  | lock {s : State} {i k : Nat} {r : List Act} : s.rest i = .lock k :: r → s.holder k = none →
      Step s i { holder := fun x => if x = k then some i else s.holder x, rest := fun x => if x = i then r else s.rest x }
  | unlock {s : State} {i k : Nat} {r : List Act} : s.rest i = .unlock k :: r →
      Step s i { holder := fun x => if x = k then none else s.holder x, rest := fun x => if x = i then r else s.rest x }
  /-- the service refuses the key after a while: the command releases what it holds (`engine.go:1221-1235`). -/
  | giveUp {s : State} {i k : Nat} {r held : List Act} : s.rest i = .lock k :: r →
      (∀ x, x ∈ held ↔ ∃ k', x = .unlock k' ∧ s.holder k' = some i) → held.Nodup →
      Step s i { s with rest := fun x => if x = i then held else s.rest x }

/-- Auxiliary of the model, executions of commands (`engine.go:1208-1242`). -/
inductive Steps : State → State → Prop
  | refl (s : State) : Steps s s
  | snoc {s s1 s2 : State} {i : Nat} : Steps s s1 → Step s1 i s2 → Steps s s2

/-- all commands are about to start, no lock is held. (Before `engine.go:1208`.) -/
def start (cmd : Nat → Cmd) : State := { holder := fun _ => none, rest := fun i => (cmd i).acts }

end Ddd.Waiting
