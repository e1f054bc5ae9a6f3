import Verif.Model.Kinds
/-! # Vocabulary for C87, C88: kinds of commands -/
namespace Ddd.Kinds
open Ddd

/-- `Init` does not use the agent. -/
def IProg.Plain : IProg → Prop
  | .done _ => True
  | .fail _ => True
  | .panic => True
  | .mutate _ k => k.Plain
  | .look k => ∀ h, (k h).Plain
  | .commit _ => False
  | .output _ _ => False

/-- what such an `Init` does: its answer, and the objects afterwards. -/
def IProg.eval : IProg → Heap → Res (List Nat) × Heap
  | .done ks, h => (.ok ks, h)
  | .fail e, h => (.err e, h)
  | .panic, h => (.panic, h)
  | .mutate f k, h => k.eval (f h)
  | .look k, h => (k h).eval h
  | .commit _, h => (.panic, h)
  | .output _ _, h => (.panic, h)

/-- the user's edits in `Init`, whatever `Commit` answers. -/
inductive Edited : IProg → Heap → Heap → Prop
  | stop (i h) : Edited i h h
  | mutate {f k h h'} : Edited k (f h) h' → Edited (.mutate f k) h h'
  | look {k h h'} : Edited (k h) h h' → Edited (.look k) h h'
  | commit {k h h'} (e) : Edited (k e) h h' → Edited (.commit k) h h'
  | output {v k h h'} : Edited k h h' → Edited (.output v k) h h'

/-- the value has all methods of `ICommand`. -/
def Obj.IsICommand (o : Obj) : Prop := o.init.isSome ∧ o.build.isSome ∧ o.act.isSome ∧ o.post.isSome

/-- user code that does not use the agent. -/
def NoAgent : Prog → Prop
  | .ret _ => True
  | .panic => True
  | .mutate _ k => NoAgent k
  | .look k => ∀ h, NoAgent (k h)
  | .get _ k => ∀ e, NoAgent (k e)
  | .customGet _ _ k => ∀ e, NoAgent (k e)
  | .add _ k => NoAgent k
  | .remove _ k => NoAgent k
  | .save k => ∀ e, NoAgent (k e)
  | .commit _ => False
  | .output _ _ => False
  | .build _ k => ∀ e, NoAgent (k e)
  | .enter _ k => NoAgent k
  | .cAdd _ k => NoAgent k
  | .cRemove _ k => NoAgent k

end Ddd.Kinds
