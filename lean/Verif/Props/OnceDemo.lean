import Verif.Props.Once
import Verif.Props.BusLTSDemo
/-!
# C79, C80: concrete deliveries, and where the effect happens twice
-/
set_option linter.unusedVariables false
namespace Ddd.Consumer
open Spec Ddd.Demo
open Router (Reg)

namespace Demo

/-- a command handler for decoded events of type 5, adding root 7 in a transaction -/
def adder : Ctor :=
  { ty := 5, construct := fun _ _ => .cmd addCmd, env := fun _ => okEnv, opts := txOpts, heap := fun _ => evHeap }

/-- fails on its first attempt: the database refuses the write -/
def flaky : Ctor :=
  { adder with env := fun hist => if (hist.any fun d => decide (d.call.fn = 2)) then okEnv else { okEnv with exec := fun _ _ => .err (.msg 77) } }

/-- its PostSave hook panics on the first attempt -/
def late : Ctor :=
  { adder with env := fun hist => if hist.isEmpty then { okEnv with postSave := fun _ _ => .panic } else okEnv }

def world : World :=
  { domainEvent := 0, decodeErr := fun ty p => if p = 13 then some 99 else none,
    ctor := fun i => if i = 1 then some adder else if i = 2 then some flaky else if i = 3 then some late else none,
    fnRet := fun _ _ => .nil, errNo := fun _ => 1 }

def ctorFn (i : Nat) : CtorFn := { ident := i, isFunc := true, ins := [⟨false, false, true, 5⟩], outs := 1 }

/-- handlers 1 and 2 for type 10, handler 3 for type 11, handler 2 for type 12 -/
def reg : Reg :=
  ((((engineRegister world Reg.empty 10 (ctorFn 1)).bind fun r => engineRegister world r 10 (ctorFn 2)).bind fun r => engineRegister world r 11 (ctorFn 3)).bind fun r =>
    engineRegister world r 12 (ctorFn 2)).getD Reg.empty

def brief (ds : List Done) : List (Nat × Router.Ret × Bool) := ds.map fun d => (d.call.fn, d.ret, d.committed)

end Demo
open Demo

/-- the hypotheses of C79 are met -/
example : Commands world reg 10 [(1, adder), (2, flaky)] := ⟨by decide, by simp [world]⟩
example : Commands world reg 12 [(2, flaky)] := ⟨by decide, by simp [world]⟩

/-- first delivery: the first handler commits, the second fails and leaves nothing; its error is returned. -/
example : (deliver world reg [] ⟨10, 42⟩).1 = .err 1 ∧ Demo.brief (deliver world reg [] ⟨10, 42⟩).2 = [(1, .nil, true), (2, .err 1, false)] := by decide +kernel

/-- an undecodable payload: no command is run. -/
example : (deliver world reg [] ⟨10, 13⟩).1 = .err 99 ∧ Demo.brief (deliver world reg [] ⟨10, 13⟩).2 = [(1, .err 99, false)] := by decide +kernel

/-- **C80** is false of the code with two handlers for one event type: the second one fails, the event is delivered again, and the first one's command commits a second time. -/
theorem C80_two_handlers : Demo.brief (deliverAll world reg [] [⟨10, 42⟩, ⟨10, 42⟩]) =
    [(1, .nil, true), (2, .err 1, false), (1, .nil, true), (2, .nil, true)] := by decide +kernel

/-- **C80** is false of the code if a PostSave hook panics: the command has committed, but the delivery fails; it is repeated and commits again. -/
theorem C80_late_panic : Demo.brief (deliverAll world reg [] [⟨11, 42⟩, ⟨11, 42⟩]) = [(3, .panic, true), (3, .nil, true)] := by decide +kernel

end Ddd.Consumer

namespace Ddd.Consumer
open Spec Ddd.Consumer.Demo Bus.LDemo
open Bus (Act limitRetry script_reaches')

namespace Demo
/-- the record after one failed attempt -/
def again : Bus.Rec := { rec7 1 with retry := 1, next := 1 }
/-- dispatched, handled with an error, scanned again, handled -/
def twice : List Act := dispatched 1 ++ scan7 [rec7 1] ++ [.call (job (rec7 1) (row 1)), .finish (job (rec7 1) (row 1)) .err] ++ scan7 [again] ++
  [.call (job again (row 1)), .finish (job again (row 1)) .ok]
def twiceLog : List Bus.Log := [.returned 7 1 (row 1) .ok 1 true, .called 7 1 (row 1) 1, .returned 7 1 (row 1) .err 1 true, .called 7 1 (row 1) 1, .stored 7 1]
def conv : Bus.EvRow → Router.Event := fun _ => ⟨12, 42⟩
end Demo

/-- C80: an event that is handled in the second attempt; the hypotheses of the theorem are met, and the command commits once. -/
example : ∃ s ps, Bus.Reachable (cfg (limitRetry 3)) strict s ∧ Plays world reg conv 7 s.log ps ∧
    (∀ e ret t b, Bus.Log.returned 7 1 e ret t b ∈ s.log → ∃ id k, Commands world reg (conv e).typ [(id, k)] ∧ k.opts.withTransaction = true) ∧
    NoLatePanic (runsFor ps 1) ∧ (∀ d ∈ runsFor ps 1, d.ret = .nil → d.committed = true) ∧ commits ps 1 = 1 ∧ (runsFor ps 1).length = 2 := by
  obtain ⟨s, h1, h2⟩ := script_reaches' (c := cfg (limitRetry 3)) (pol := strict) twice (p := fun s => s.log = twiceLog) (by decide +kernel)
  let d1 := handle world [] ⟨2, .raw ⟨12, 42⟩⟩
  let d2 := handle world [d1] ⟨2, .raw ⟨12, 42⟩⟩
  have e1 : d1.ret = .err 1 ∧ d1.committed = false := by decide +kernel
  have e2 : d2.ret = .nil ∧ d2.committed = true := by decide +kernel
  have hd : ∀ hist : List Done, deliver world reg hist ⟨12, 42⟩ = ((handle world hist ⟨2, .raw ⟨12, 42⟩⟩).ret, hist ++ [handle world hist ⟨2, .raw ⟨12, 42⟩⟩]) := by
    intro hist
    have hr : reg.handlers 12 = [⟨closureFn world 2, 0⟩] := by decide
    simp only [deliver, Router.onEvent, hr, Router.onEventLoop]
    have h5 : ∀ c, (routerWorld world hist).answer [] c = (handle world hist c).ret := fun _ => rfl
    have h6 : Router.arg (routerWorld world hist) 0 ⟨12, 42⟩ = .inr (.raw ⟨12, 42⟩) := rfl
    have h7 : (closureFn world 2).takesCtx = true := rfl
    have h8 : (closureFn world 2).nilable = true := rfl
    have h9 : (closureFn world 2).ident = 2 := rfl
    simp only [h5, h6, h7, h8, h9]
    cases (handle world hist ⟨2, .raw ⟨12, 42⟩⟩).ret <;> simp [handleAll]
  refine ⟨s, [(1, [d2]), (1, [d1])], h1, ?_, ?_, ?_, ?_, ?_, rfl⟩
  · rw [h2]
    refine .delivery (out := .nil) (.other (.delivery (out := .err 1) (.other (.other .nil (by simp)) (by simp)) ?_ trivial) (by simp)) ?_ trivial
    · rw [show past [] = [] from rfl, conv, hd, show (handle world [] ⟨2, .raw ⟨12, 42⟩⟩).ret = .err 1 from e1.1]
    · rw [show past [(1, [d1])] = [d1] from rfl, conv, hd, show (handle world [d1] ⟨2, .raw ⟨12, 42⟩⟩).ret = .nil from e2.1]
  · intro e ret t b _
    exact ⟨2, flaky, ⟨show reg.handlers 12 = _ by decide, by simp [world]⟩, rfl⟩
  · intro d hd _
    simp [runsFor] at hd
    rcases hd with rfl | rfl
    · rw [e2.1]; simp
    · rw [e1.1]; simp
  · intro d hd hn
    simp [runsFor] at hd
    rcases hd with rfl | rfl
    · exact e2.2
    · rw [e1.1] at hn; cases hn
  · simp [commits, runsFor, e1.2, e2.2]

end Ddd.Consumer
