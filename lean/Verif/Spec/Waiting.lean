import Verif.Model.Waiting
import Mathlib.Logic.Relation
/-! # Specification vocabulary: waiting -/
namespace Ddd.Waiting

/-- process `i` waits for a key that process `j` holds. -/
def WaitsFor (s : State) (i j : Nat) : Prop := ∃ k r, s.rest i = .lock k :: r ∧ s.holder k = some j

/-- some step other than giving up is possible for process `j`. -/
def CanProceed (s : State) (j : Nat) : Prop := (∃ k r, s.rest j = .lock k :: r ∧ s.holder k = none) ∨ ∃ k r, s.rest j = .unlock k :: r

/-- circular wait -/
def Deadlock (s : State) (i : Nat) : Prop := Relation.TransGen (WaitsFor s) i i

end Ddd.Waiting
