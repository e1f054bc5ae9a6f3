import Verif.Props.Answers
import Verif.Props.CommandDemo
/-! C105: a case that meets its hypotheses. -/
namespace Ddd
open Spec Demo

namespace AnswersDemo
/-- everything succeeds, except calls that a successful adding command does not make: deletes fail, rolling back panics, also on the bus, ... -/
def moody : Env := { okEnv with exec := fun _ x => if x.op = .delete then .err (.msg 1) else .ok (), rollback := fun _ => .panic, busRollback := fun _ => .panic, query := fun _ h _ => (h, .panic), lock := fun _ k => if k = 4 ∨ k = 9 then .ok () else .panic }
/-- the calls `okEnv` and `moody` answer equally -/
def harmless : Call → Bool
  | .rollback _ => false
  | .busRollback _ => false
  | .query _ _ => false
  | .exec x _ => decide (x.op ≠ .delete)
  | .lock k _ => decide (k = 4 ∨ k = 9)
  | _ => true
end AnswersDemo
open AnswersDemo

/-- the hypotheses of `C105_determined` can be met by two different environments; the command locks, writes, dispatches and commits. -/
theorem answers_demo : (∀ pre x post, (run okEnv txOpts addCmd evHeap).2.trace = pre ++ x :: post → SameAnswer okEnv moody pre x) ∧ okEnv.ord = moody.ord ∧ okEnv.hasHook = moody.hasHook ∧
    okEnv.rollback [] ≠ moody.rollback [] ∧ run moody txOpts addCmd evHeap = run okEnv txOpts addCmd evHeap := by
  have h : ∀ pre x post, (run okEnv txOpts addCmd evHeap).2.trace = pre ++ x :: post → SameAnswer okEnv moody pre x := by
    have hall : ((run okEnv txOpts addCmd evHeap).2.trace.all harmless) = true := by decide +kernel
    generalize (run okEnv txOpts addCmd evHeap).2.trace = tr at hall
    intro pre x post e
    have hx : harmless x = true := List.all_eq_true.1 hall x (by rw [e]; simp)
    clear hall e
    cases x <;> first
      | exact (Bool.false_ne_true hx).elim
      | rfl
      | exact fun _ => rfl
      | trivial
      | (simp only [harmless, decide_eq_true_eq] at hx; simp only [SameAnswer, moody, okEnv]; first | rw [if_neg hx] | rw [if_pos hx])
  have ho : okEnv.ord = moody.ord := rfl
  have hh : okEnv.hasHook = moody.hasHook := rfl
  have hr := C105_determined (a := okEnv) (b := moody) ho hh txOpts addCmd evHeap h
  exact ⟨h, ho, hh, by simp [okEnv, moody], hr⟩

/-- where the answers differ, so may the outcome: the same command, a failing write. -/
example : let e : Env := { okEnv with exec := fun _ _ => .err (.msg 77) }
    ((run e txOpts addCmd evHeap).1.map fun r => r.error.isNone) = some false ∧ ((run okEnv txOpts addCmd evHeap).1.map fun r => r.error.isNone) = some true := by decide +kernel

end Ddd
