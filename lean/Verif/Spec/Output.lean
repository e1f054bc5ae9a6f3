import Verif.Model.Kinds
/-!
# Vocabulary of C108: a command without its calls of `Output`
-/
namespace Ddd.Spec
open Kinds

/-- user code of `Main` or `Act` with its calls of `Output` left out -/
def muteProg : Prog → Prog
  | .ret r => .ret r
  | .panic => .panic
  | .mutate f k => .mutate f (muteProg k)
  | .look k => .look fun h => muteProg (k h)
  | .get r k => .get r fun e => muteProg (k e)
  | .customGet g rs k => .customGet g rs fun e => muteProg (k e)
  | .add rs k => .add rs (muteProg k)
  | .remove rs k => .remove rs (muteProg k)
  | .save k => .save fun e => muteProg (k e)
  | .commit k => .commit fun e => muteProg (k e)
  | .output _ k => muteProg k
  | .build r k => .build r fun e => muteProg (k e)
  | .enter rs k => .enter rs (muteProg k)
  | .cAdd r k => .cAdd r (muteProg k)
  | .cRemove r k => .cRemove r (muteProg k)

/-- user code of `Init` with its calls of `Output` left out -/
def muteInit : IProg → IProg
  | .done keys => .done keys
  | .fail e => .fail e
  | .panic => .panic
  | .mutate f k => .mutate f (muteInit k)
  | .look k => .look fun h => muteInit (k h)
  | .commit k => .commit fun e => muteInit (k e)
  | .output _ k => muteInit k

/-- user code of `Build` with its calls of `Output` left out -/
def muteBuild : BProg → BProg
  | .done rs => .done rs
  | .fail e => .fail e
  | .panic => .panic
  | .mutate f k => .mutate f (muteBuild k)
  | .look k => .look fun h => muteBuild (k h)
  | .build r k => .build r fun e => muteBuild (k e)
  | .commit k => .commit fun e => muteBuild (k e)
  | .output _ k => muteBuild k

/-- a command with Init, Build, Act and PostSave -/
def fullCommand (i : IProg) (b : BProg) (a : List Ptr → Prog) (p : Nat) : Obj := { init := some i, build := some b, act := some a, post := some p, main := none, func := none }

/-- two results that differ at most in the output -/
def SameResult (r r' : Result) : Prop := r.error = r'.error ∧ r.brk = r'.brk ∧ r.actions = r'.actions

end Ddd.Spec
