import Verif.Model.Err
/-!
# PostSave hook slices

Models how commands on one engine share the slice `Options.PostSaveHooks`: `NewEngine` applies the options (`/repo/engine.go:449-451`), `NewStage`
copies the options by value, i.e. the slice header (`engine.go:470-483`), `WithPostSave`/`Run`/`RunCommand` append to it
(`engine.go:417-421,778,823-825`), `Save` reads it (`engine.go:1299-1303`). Backing arrays are explicit, because Go's `append` writes in place if
there is capacity. Commands may be concurrent or nested: one element access is one step.
-/
namespace Ddd.Hooks

/-- a Go slice header (The type of `Options.PostSaveHooks` (`engine.go:302`)) -/
structure Slice where
  arr : Nat
  len : Nat
  cap : Nat
  deriving DecidableEq, Repr

/-- backing arrays; arrays from `next` on are not allocated. Array 0 stands for the nil slice (capacity 0). (What slices like `Options.PostSaveHooks` (`engine.go:302`) point to.) -/
structure Mem where
  cell : Nat → Nat → Nat
  next : Nat

/-- Go `append(s, h)`: in place if there is capacity, otherwise into a new array of capacity `grow s.len`. (`engine.go:420`.) -/
def append (grow : Nat → Nat) (m : Mem) (s : Slice) (h : Nat) : Mem × Slice :=
  if s.len < s.cap then
    ({ m with cell := fun a i => if a = s.arr ∧ i = s.len then h else m.cell a i }, { s with len := s.len + 1 })
  else
    ({ cell := fun a i => if a = m.next then (if i < s.len then m.cell s.arr i else if i = s.len then h else 0) else m.cell a i, next := m.next + 1 },
     { arr := m.next, len := s.len + 1, cap := grow s.len })

/-- `NewEngine`: every `WithPostSave` option appends one hook (`engine.go:419-421,449-451`). -/
def engineSlice (grow : Nat → Nat) : List Nat → Mem × Slice
  | hs => hs.foldl (fun (m, s) h => append grow m s h) ({ cell := fun _ _ => 0, next := 1 }, { arr := 0, len := 0, cap := 0 })

/-- the elements of a slice (`range e.options.PostSaveHooks` in `Save` (`engine.go:1288-1310`)) -/
def Mem.read (m : Mem) (s : Slice) : List Nat := (List.range s.len).map (m.cell s.arr)

/-- Where a command is: not started; applying its options (`todo` own hooks are still to be appended); `Save` is past the transaction and the hooks
`called` have been called. (`engine.go:470-483,605-625,1288-1310`.) -/
inductive Pc where
  | idle
  | options (s : Slice) (todo : List Nat)
  | hooks (s : Slice) (called : List Nat)
  deriving DecidableEq, Repr

/-- The memory and where every command is (`engine.go:470-483,605-625,1288-1310`). -/
structure State where
  mem : Mem
  pc : Nat → Pc

/-- Auxiliary: command `i` (`engine.go:508`) goes on to `p`. -/
def State.at (s : State) (i : Nat) (p : Pc) : State := { s with pc := fun x => if x = i then p else s.pc x }

/-- One step. `eng` is the engine's slice, `own i` the hooks command `i` adds. (The lines of `engine.go` are with the constructors.) -/
inductive Step (grow : Nat → Nat) (eng : Slice) (own : Nat → List Nat) : State → State → Prop
  /-- `NewStage` copies the header (`engine.go:480`) -/
  | start {s : State} {i : Nat} : s.pc i = .idle → Step grow eng own s (s.at i (.options eng (own i)))
  /-- `WithOption(PostSaveOption(..))` (`engine.go:420`) -/
  | add {s : State} {i : Nat} {sl : Slice} {h : Nat} {todo : List Nat} : s.pc i = .options sl (h :: todo) →
      Step grow eng own s { (s.at i (.options (append grow s.mem sl h).2 todo)) with mem := (append grow s.mem sl h).1 }
  /-- the command has run without error (`engine.go:1298-1300`) -/
  | run {s : State} {i : Nat} {sl : Slice} : s.pc i = .options sl [] → Step grow eng own s (s.at i (.hooks sl []))
  /-- one hook call (`engine.go:1300-1302`) -/
  | call {s : State} {i : Nat} {sl : Slice} {called : List Nat} : s.pc i = .hooks sl called → called.length < sl.len →
      Step grow eng own s (s.at i (.hooks sl (called ++ [s.mem.cell sl.arr called.length])))

/-- Auxiliary of the model, executions of the commands of `engine.go:500-511`. -/
inductive Steps (grow : Nat → Nat) (eng : Slice) (own : Nat → List Nat) : State → State → Prop
  | refl (s : State) : Steps grow eng own s s
  | snoc {s s1 s2 : State} : Steps grow eng own s s1 → Step grow eng own s1 s2 → Steps grow eng own s s2

/-- Go's growth rule for slices of pointers up to 256 elements (`runtime/slice.go`: double; 1 for the empty slice; the sizes are size classes). -/
def goGrow (n : Nat) : Nat := if n = 0 then 1 else 2 * n

end Ddd.Hooks
