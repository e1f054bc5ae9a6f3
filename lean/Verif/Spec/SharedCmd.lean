import Verif.Model.SharedCmd
/-!
# Vocabulary of C110
-/
namespace Ddd.SharedCmd

/-- every run is started before its code runs, and once -/
def Runs (l : List Access) : Prop :=
  (∀ a b i x, l = a ++ .ask i x :: b → .set i ∈ a) ∧ ∀ a b i, l = a ++ .set i :: b → .set i ∉ a ∧ .set i ∉ b

/-- another run is started while run `i` still has calls to make: `set i … set j … ask i` -/
def Overlap (l : List Access) : Prop := ∃ a b d i j x, j ≠ i ∧ l = a ++ .set j :: (b ++ .ask i x :: d) ∧ .set i ∈ a

/-- what the code of run `i` handed to `Output`, in order -/
def saidBy (i : Nat) (l : List Access) : List Nat := l.filterMap fun x => match x with | .ask j (.output v) => if j = i then some v else none | _ => none

end Ddd.SharedCmd
