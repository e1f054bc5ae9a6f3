import Verif.Spec.Save
import Verif.Spec.Graph
/-!
# Specification: a store and an executor that applies writes literally
-/
namespace Ddd.Spec
open Ddd

/-- the primary key of a row: table (model type) and ID -/
def _root_.Ddd.Model.key (m : Model) : Nat × Nat := (m.typ, m.id)

/-- rows by primary key -/
abbrev Store := Nat × Nat → Option Model

def Store.set (st : Store) (k : Nat × Nat) (r : Option Model) : Store := fun k' => if k' = k then r else st k'

/-- one row: an insert of an existing key fails (`none`), an update of a missing row has no effect -/
def Store.put (op : Op) (st : Store) (m : Model) : Option Store :=
  match op with
  | .insert => if (st m.key).isSome then none else some (st.set m.key (some m))
  | .update => if (st m.key).isSome then some (st.set m.key (some m)) else some st
  | .delete => some (st.set m.key none)
  | .query => some st

/-- one batch -/
def Store.apply (st : Store) (a : Action) : Option Store := a.models.foldlM (Store.put a.op) st

/-- all writes of a save, in order -/
def Store.applyAll (st : Store) (as : List Action) : Option Store := as.foldlM Store.apply st

/-- The converter is a function of the entity and its parent: `row h n p` is the model of `n` below `p`, `none` for types without model. -/
def RowOf (env : Env) (row : Heap → Node → Node → Option Model) : Prop :=
  ∀ t h n p op, op ≠ .query → match row h n p with
    | some m => env.conv t h n (some p) op = .ok m
    | none => ∃ e, env.conv t h n (some p) op = .err e ∧ e.is .notRegister = true

/-- the save removes `d` from below `p`: it is gone from there and was not put elsewhere, or (recursive delete) it hangs below such an entity -/
def Removed (kids : Kids Node) (old : Node → Option (List (Nat × List Node))) (rec : Bool) (d p : Node) : Prop :=
  ((∃ k, Gone kids old none p k d) ∧ ¬ ∃ p' k', Added kids old none p' k' d) ∨
  (rec = true ∧ ∃ r, ((∃ q k, Gone kids old none q k r) ∧ ¬ ∃ p' k', Added kids old none p' k' r) ∧ Reach kids r p ∧ Child kids p d)

/-- `n` is in the aggregate below `p`, or is removed from there -/
def Placed (kids : Kids Node) (old : Node → Option (List (Nat × List Node))) (rec : Bool) (n p : Node) : Prop :=
  (Reach kids none p ∧ Child kids p n) ∨ Removed kids old rec n p

end Ddd.Spec
