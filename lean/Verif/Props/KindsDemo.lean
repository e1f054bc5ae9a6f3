import Verif.Props.Kinds
/-!
# Concrete values given to `Run` (C87, C88)
-/
namespace Ddd.Kinds
open Ddd Spec
/-! ## concrete values -/
section
open Demo

def parent : Heap := heapOf [(2, [(0, [])])] stdAttr (by decide) (by decide)
/-- the edit "append child 1". -/
def append1 (_ : Heap) : Heap := heapOf [(2, [(0, [1])])] stdAttr (by decide) (by decide)

/-- a value with all methods: `Init` asks for locks 9 and 4, `Build` returns root 2, `Act` appends a child; `Main` fails. -/
def full : Obj :=
  { init := some (.done [9, 4]), build := some (.build 2 fun e => match e with | none => .done [2] | some e => .fail e),
    act := some fun _ => .mutate append1 (.ret none), post := some 5, main := some (.ret (some (.msg 99))), func := none }
/-- the same, the child appended in `Build`. -/
def early : Obj := { full with build := some (.build 2 fun _ => .mutate append1 (.done [2])), act := some fun _ => .ret none }
/-- no `Init`, `Build`, `Act`: `Main` is used. -/
def mainOnly : Obj := { init := none, build := none, act := none, post := none, main := some (.ret (some (.msg 99))), func := none }

def brief (x : Outcome) : List Call × Option Bool := (x.2.trace.filterMap Demo.brief, x.1.map fun r => r.error.isNone)

example : full.IsICommand ∧ ¬ mainOnly.IsICommand := by simp [Obj.IsICommand, full, mainOnly]

example : brief (runObj okEnv txOpts full parent) =
    ([.lock 4 .ok, .lock 9 .ok, .begin .ok, .mainStart, .query 2 .ok, .mainRet .ok, .exec ⟨.insert, [], []⟩ .ok, .commit .ok, .unlock 4 .ok, .unlock 9 .ok,
      .postSave 8 .ok, .postSave 5 .ok], some true) := by decide +kernel

/-- the child appended in `Build` is not inserted, and the command succeeds. -/
theorem C88_build_changes_lost : brief (runObj okEnv txOpts early parent) =
    ([.lock 4 .ok, .lock 9 .ok, .begin .ok, .mainStart, .query 2 .ok, .mainRet .ok, .commit .ok, .unlock 4 .ok, .unlock 9 .ok, .postSave 8 .ok, .postSave 5 .ok], some true) := by
  decide +kernel

example : brief (runObj okEnv txOpts mainOnly parent) = ([.begin .ok, .mainStart, .mainRet .err, .rollback .ok], some false) := by decide +kernel

/-- `Output` in `Main` of a value that is no `ICommand` panics (after the transaction was begun and rolled back, the panic is recovered into an error or passed on). -/
example : ((runObj okEnv txOpts { mainOnly with main := some (.output 3 (.ret none)) } parent).2.trace.filterMap Demo.brief) =
    [.begin .ok, .mainStart, .mainRet .panic, .rollback .ok] := by decide +kernel
end
end Ddd.Kinds
