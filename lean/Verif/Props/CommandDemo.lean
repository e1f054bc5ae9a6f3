import Verif.Props.Command
/-!
# Concrete commands meeting the hypotheses of C14–C23, and the counterexamples
-/
namespace Ddd
open Spec Demo

namespace Demo

/-- entity 7 is the root, entity 3 its child; entity 3 carries two events, one of them transactional. -/
def evAttr (p : Ptr) : Attr :=
  { id := p, typ := 1, dirty := false, data := 0,
    events := if p = 3 then [⟨21, 5, true, 0⟩, ⟨20, 5, false, 0⟩] else [] }

def evHeap : Heap := heapOf [(7, [(0, [3])])] evAttr (by decide) (by decide)

/-- a command asking for locks 9 and 4, adding root 7, with PostSave hook 5. -/
def addCmd : Cmd := { init := some (.ok [9, 4]), main := .add [7] (.ret none), post := some 5 }
def brkCmd : Cmd := { init := some (.ok [9, 4]), main := .add [7] (.save fun _ => .ret (some (.wrap (.sent .brk)))), post := some 5 }

def txOpts : Opts :=
  { withTransaction := true, recursiveDelete := false, dryRun := false, eventPersist := true, bus := .tx, hooks := [8] }

/-- what happened, without the details of conversions and writes. -/
def brief : Call → Option Call
  | .conv .. => none
  | .exec a st => some (.exec { a with models := [], prev := [] } st)
  | .evModel .. => none
  | c => some c

end Demo

/-- a complete command: locks in order, transaction, writes, persisted and dispatched events, commit, unlock, hooks. -/
example : ((run okEnv txOpts addCmd evHeap).2.trace.filterMap brief,
      (run okEnv txOpts addCmd evHeap).1.map fun r => (r.error.isNone, r.brk)) =
    ([.lock 4 .ok, .lock 9 .ok, .begin .ok, .mainStart, .mainRet .ok,
      .exec ⟨.insert, [], []⟩ .ok, .exec ⟨.insert, [], []⟩ .ok,
      .dispatchBegin [⟨21, 5, true, 0⟩] .ok, .dispatch [⟨20, 5, false, 0⟩] .ok,
      .commit .ok, .busCommit .ok, .unlock 4 .ok, .unlock 9 .ok, .postSave 8 .ok, .postSave 5 .ok], some (true, false)) := by
  decide +kernel

/-- `Commit` panics. -/
def commitPanicEnv : Env := { okEnv with commit := fun _ => .panic }

/-- **C14** is false of the code when a call ending the transaction panics: `Commit` and `RollBack` are both issued. -/
theorem C14_commit_panic_ends_twice :
    ends (run commitPanicEnv txOpts addCmd evHeap).2.trace = [.commit .panic, .rollback .ok] := by decide +kernel

/-- `RollBack` panics: it is called a second time. -/
def rollbackPanicEnv : Env := { okEnv with exec := fun _ _ => .err (.msg 77), rollback := fun _ => .panic }

theorem C14_rollback_panic_ends_twice :
    ends (run rollbackPanicEnv txOpts addCmd evHeap).2.trace = [.rollback .panic, .rollback .panic] := by decide +kernel

/-- a failing write: rolled back, on the executor and on the bus only if events had been handed over. -/
example : let e : Env := { okEnv with exec := fun _ _ => .err (.msg 77) }
    (run e txOpts addCmd evHeap).2.trace.filterMap brief =
      [.lock 4 .ok, .lock 9 .ok, .begin .ok, .mainStart, .mainRet .ok, .exec ⟨.insert, [], []⟩ .err, .rollback .ok,
       .unlock 4 .ok, .unlock 9 .ok] := by decide +kernel

/-- a failing dispatch after the transactional events were handed over. -/
example : let e : Env := { okEnv with dispatch := fun _ _ => .err (.msg 77) }
    ((run e txOpts addCmd evHeap).2.trace.filterMap brief).drop 5 =
      [.exec ⟨.insert, [], []⟩ .ok, .exec ⟨.insert, [], []⟩ .ok, .dispatchBegin [⟨21, 5, true, 0⟩] .ok, .dispatch [⟨20, 5, false, 0⟩] .err,
       .rollback .ok, .busRollback .ok, .unlock 4 .ok, .unlock 9 .ok] := by decide +kernel

/-- a failing commit. -/
example : let e : Env := { okEnv with commit := fun _ => .err (.msg 78) }
    (Call.commit .err ∈ (run e txOpts addCmd evHeap).2.trace ∧
      (run e txOpts addCmd evHeap).1.map (fun r => r.error.isSome) = some true) := by decide +kernel

/-- a break inside `Main` after a successful intermediate save. -/
example : (run okEnv txOpts brkCmd evHeap).2.trace.filterMap brief =
      [.lock 4 .ok, .lock 9 .ok, .begin .ok, .mainStart, .exec ⟨.insert, [], []⟩ .ok, .mainRet .err, .rollback .ok,
       .unlock 4 .ok, .unlock 9 .ok, .postSave 8 .ok, .postSave 5 .ok] ∧
    (run okEnv txOpts brkCmd evHeap).1.map (fun r => (r.error.isNone, r.brk)) = some (true, true) := by decide +kernel

/-- **C19** is false of the code when `Init` breaks: the result has no error and no hook is called. -/
theorem C19_init_break_skips_hooks :
    let c : Cmd := { init := some (.err (.sent .brk)), main := .ret none, post := some 5 }
    (run okEnv txOpts c evHeap).1.map (fun r => (r.error.isNone, r.brk)) = some (true, true) ∧
    hooksRun (run okEnv txOpts c evHeap).2.trace = [] ∧ txOpts.hooks ++ c.post.toList = [8, 5] := by decide +kernel

/-- **C23** is false of the code when `Lock` panics: the locks obtained before are never released. -/
theorem C23_lock_panic_leaks :
    let e : Env := { okEnv with lock := fun _ k => if k = 9 then .panic else .ok () }
    (run e txOpts addCmd evHeap).2.trace = [.lock 4 .ok, .lock 9 .panic] := by decide +kernel

/-- **C23** is false of the code when `UnLock` panics: the locks after it are never released. -/
theorem C23_unlock_panic_leaks :
    let e : Env := { okEnv with unlock := fun _ _ => .panic }
    lockedKeys (run e txOpts addCmd evHeap).2.trace = [4, 9] ∧ unlockReqs (run e txOpts addCmd evHeap).2.trace = [4] := by
  decide +kernel

/-- a refused lock: the ones obtained are released, nothing else happens. -/
example : let e : Env := { okEnv with lock := fun _ k => if k = 9 then .err (.sent .locked) else .ok () }
    (run e txOpts addCmd evHeap).2.trace = [.lock 4 .ok, .lock 9 .err, .unlock 4 .ok] := by decide +kernel

/-- repeated keys. -/
example : let c : Cmd := { init := some (.ok [9, 4, 9]), main := .ret none, post := none }
    (run okEnv txOpts c evHeap).2.trace = [] ∧ (run okEnv txOpts c evHeap).1.map (fun r => r.error.isSome) = some true := by
  decide +kernel

/-- dry run. -/
example : (run okEnv { txOpts with dryRun := true } addCmd evHeap).2.trace.filterMap brief =
    [.lock 4 .ok, .lock 9 .ok, .begin .ok, .mainStart, .mainRet .ok, .commit .ok, .unlock 4 .ok, .unlock 9 .ok,
     .postSave 8 .ok, .postSave 5 .ok] := by decide +kernel

end Ddd
