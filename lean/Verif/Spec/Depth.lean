import Verif.Model.Depth
import Mathlib.Logic.Relation
/-!
# Vocabulary of C113
-/
namespace Ddd.Depth
variable {N : Type}

/-- `c` is in one of the child fields of `p` -/
def Child (g : Objects N) (p c : N) : Prop := ∃ k cs, (k, cs) ∈ g.kids p ∧ c ∈ cs

/-- one can go from child to child for ever, starting at `e` -/
def Endless (g : Objects N) (e : N) : Prop := ∃ path : Nat → N, path 0 = e ∧ ∀ i, Child g (path i) (path (i + 1))

/-- `e` is below itself -/
def OnCycle (g : Objects N) (e : N) : Prop := Relation.TransGen (Child g) e e

/-- the call comes back for a deep enough stack -/
def Returns {α : Type} (call : Nat → Option α) : Prop := ∃ depth, (call depth).isSome

end Ddd.Depth
