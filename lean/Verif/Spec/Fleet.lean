import Verif.Model.Fleet
import Verif.Spec.Startup
import Verif.Spec.BusLTS
/-!
# Vocabulary of C122
-/
namespace Ddd.Fleet
open Bus Router

/-- every call of a callback that returned for this delivery of the service found a registration of this function for the type of the event -/
def Everywhere (view : DEv → Event) (svc eid : Nat) (fn : Fn) (ty : Nat) (f : FState) : Prop :=
  ∀ en ∈ f.seen, en.svc = svc → en.eid = eid → ∀ fs, Registered (view en.e.ev).typ en.hist fs → (fn, ty) ∈ fs

/-- the function was called with the event and returned nil -/
def Ran (view : DEv → Event) (en : Entry) (fn : Fn) (ty : Nat) : Prop :=
  ∃ i a, (answer view en).2[i]? = some ⟨fn.ident, a⟩ ∧ Given en.w (view en.e.ev) ty a ∧ en.w.answer ((answer view en).2.take i) ⟨fn.ident, a⟩ = .nil

/-- what can happen from a state on -/
inductive FSteps (c : Cfg) (pol : Pol) (svcOf : Nat → Nat) (view : DEv → Event) : FState → FState → Prop
  | refl (f) : FSteps c pol svcOf view f f
  | step {a b d} : FSteps c pol svcOf view a b → FStep c pol svcOf view b d → FSteps c pol svcOf view a d

end Ddd.Fleet
