import Verif.Props.Output
import Verif.Props.KindsDemo
/-!
# Concrete cases of C108
-/
namespace Ddd.Kinds
open Ddd Spec
section
open Demo

/-- `full` with a call of `Output` in `Init`, one in `Build` and one in `Act`. -/
def speaks (i b a : Nat) : Obj :=
  fullCommand (.output i (.done [9, 4])) (.output b (.build 2 fun e => match e with | none => .done [2] | some e => .fail e)) (fun _ => .output a (.mutate append1 (.ret none))) 5

/-- only `Init` calls `Output` -/
def early7 : Obj := fullCommand (.output 7 (.done [9, 4])) (.build 2 fun e => match e with | none => .done [2] | some e => .fail e) (fun _ => .mutate append1 (.ret none)) 5

/-- **C108** (the documented behaviour does not hold) `Init` calls `Output`; `Build` (the query of 2) and `Act` (the insert) run nevertheless, and the output is kept. -/
theorem C108_goes_on : brief (runObj okEnv txOpts early7 parent) =
    ([.lock 4 .ok, .lock 9 .ok, .begin .ok, .mainStart, .query 2 .ok, .mainRet .ok, .exec ⟨.insert, [], []⟩ .ok, .commit .ok, .unlock 4 .ok, .unlock 9 .ok,
      .postSave 8 .ok, .postSave 5 .ok], some true) ∧ (runObj okEnv txOpts early7 parent).1.map Result.output = some 7 := by
  decide +kernel

/-- each call replaces the output set before: here that of `Act` counts. -/
example : brief (runObj okEnv txOpts (speaks 1 2 3) parent) = brief (runObj okEnv txOpts early7 parent) ∧ (runObj okEnv txOpts (speaks 1 2 3) parent).1.map Result.output = some 3 := by
  decide +kernel

/-- `C108_no_effect` needs no hypothesis; a command and what it is compared with. -/
example : muteInit (.output 7 (.done [9, 4])) = .done [9, 4] ∧ muteProg (.output 3 (.mutate append1 (.ret none))) = .mutate append1 (.ret none) := ⟨rfl, rfl⟩
end
end Ddd.Kinds
