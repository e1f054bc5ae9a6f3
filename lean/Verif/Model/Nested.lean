import Verif.Model.Waiting
/-!
# Commands that run further commands inside their `Main`

As `Model/Waiting.lean` (lock service that makes a caller wait while somebody else holds the key, or refuses it after a while; what a command requests is `runOnLock`,
`/repo/engine.go:1208-1242`), but with the frames of `Save` of the commands that are under way, so that a nested command may fail and the `Main` around it may go on with its next
nested command, or return, early or at its end.
-/
namespace Ddd.Nested

/-- One `Save` under way (`engine.go:1208-1242`): the keys still to request, in order (`1219-1229`), the keys obtained, in order (`1215`), the commands its `Main` has yet to run, and whether the deferred function
has begun (`1230-1235`). -/
structure Frame where
  todo : List Nat
  got : List Nat
  inner : List Waiting.Cmd
  releasing : Bool

/-- Auxiliary: the beginning of `Save` of a command (`engine.go:1208-1216`): keys sorted; repeated keys are refused before any request (`none`). -/
def frame : Waiting.Cmd → Option Frame
  | .mk keys inner =>
    let ks := keys.insertionSort (· ≤ ·)
    if hasAdjacentDup ks then none else some ⟨ks, [], inner, false⟩

/-- Auxiliary: a process calls `Save` of a command (`engine.go:1208-1216`). -/
def push (c : Waiting.Cmd) (fs : List Frame) : List Frame := (frame c).toList ++ fs

/-- `holder k`: the process holding `k`; `procs i`: the frames of process `i`, the innermost first. (The locks of `engine.go:1208-1242`.) -/
structure State where
  holder : Nat → Option Nat
  procs : Nat → List Frame

/-- Auxiliary: the frames of process `i` change (`engine.go:1208-1242`). -/
def State.put (s : State) (i : Nat) (fs : List Frame) : State := { s with procs := fun x => if x = i then fs else s.procs x }

/-- Auxiliary: the holder of key `k` changes (`engine.go:1220,1231`). -/
def State.own (s : State) (k : Nat) (h : Option Nat) : State := { s with holder := fun x => if x = k then h else s.holder x }

/-- What process `i` does by itself (`engine.go:1208-1242`): a lock is obtained only if the key is free. -/
inductive Go : State → Nat → State → Prop
  | lock {s : State} {i k : Nat} {f : Frame} {ks : List Nat} {fs : List Frame} : s.procs i = f :: fs → f.releasing = false → f.todo = k :: ks → s.holder k = none →
      Go s i ((s.own k (some i)).put i ({ f with todo := ks, got := f.got ++ [k] } :: fs))
  /-- `Main` runs a command (`engine.go:508-510` called from user code) -/
  | call {s : State} {i : Nat} {f : Frame} {c : Waiting.Cmd} {cs : List Waiting.Cmd} {fs : List Frame} : s.procs i = f :: fs → f.releasing = false → f.todo = [] → f.inner = c :: cs →
      Go s i (s.put i (push c ({ f with inner := cs } :: fs)))
  /-- `Main` returns (`engine.go:1237-1241`) -/
  | over {s : State} {i : Nat} {f : Frame} {fs : List Frame} : s.procs i = f :: fs → f.releasing = false → f.todo = [] → f.inner = [] →
      Go s i (s.put i ({ f with releasing := true } :: fs))
  /-- the deferred function unlocks the next key (`engine.go:1230-1232`) -/
  | unlock {s : State} {i k : Nat} {f : Frame} {ks : List Nat} {fs : List Frame} : s.procs i = f :: fs → f.releasing = true → f.got = k :: ks →
      Go s i ((s.own k none).put i ({ f with got := ks } :: fs))
  /-- the command is through (`engine.go:1241`) -/
  | leave {s : State} {i : Nat} {f : Frame} {fs : List Frame} : s.procs i = f :: fs → f.releasing = true → f.got = [] → Go s i (s.put i fs)

/-- One step of process `i` (`engine.go:1208-1242`). -/
inductive Step : State → Nat → State → Prop
  | go {s s' : State} {i : Nat} : Go s i s' → Step s i s'
  /-- the service refuses the key after a while: the command fails, what it obtained is released (`engine.go:1221-1235`); the `Main` around it may do what it likes. -/
  | refused {s : State} {i k : Nat} {f : Frame} {ks : List Nat} {fs : List Frame} : s.procs i = f :: fs → f.releasing = false → f.todo = k :: ks →
      Step s i (s.put i ({ f with todo := [], inner := [], releasing := true } :: fs))
  /-- `Main` returns early, for instance because a nested command failed (`engine.go:1237-1241`) -/
  | early {s : State} {i : Nat} {f : Frame} {fs : List Frame} : s.procs i = f :: fs → f.releasing = false → f.todo = [] →
      Step s i (s.put i ({ f with inner := [], releasing := true } :: fs))

/-- Auxiliary of the model, executions of commands (`engine.go:1208-1242`). -/
inductive Steps : State → State → Prop
  | refl (s : State) : Steps s s
  | snoc {s s1 s2 : State} {i : Nat} : Steps s s1 → Step s1 i s2 → Steps s s2

/-- all commands are about to start, no lock is held. (Before `engine.go:1208`.) -/
def start (cmd : Nat → Waiting.Cmd) : State := { holder := fun _ => none, procs := fun i => push (cmd i) [] }

end Ddd.Nested
