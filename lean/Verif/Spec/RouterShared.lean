import Verif.Spec.Router
import Verif.Model.RouterShared
/-! # Specification vocabulary: what becomes of the event object during a delivery -/
namespace Ddd.Router

/-- `evs i` is the event object when the `i`-th call of `cs` begins: `e` at first, and changed only by calls of handlers that were given the event itself. -/
def Evolves (edit : Edits) (e : Event) (cs : List Call) (evs : Nat → Event) : Prop :=
  evs 0 = e ∧ ∀ i c, cs[i]? = some c →
    ((∃ x, c.arg = .raw x) → evs (i + 1) = edit (cs.take i) c (evs i)) ∧ ((∀ x, c.arg ≠ .raw x) → evs (i + 1) = evs i)

end Ddd.Router
