import Verif.Model.Example
import Mathlib.Data.List.Basic
import Mathlib.Algebra.BigOperators.Group.List.Basic
/-! Vocabulary of C96–C98: what an order costs, without the order's own arithmetic. -/
namespace Ddd.Spec
open Ddd.Example

/-- The price of some lines in unbounded integers: prices times counts, minus discounts. -/
def cost (lines : List (BitVec 64 × BitVec 32)) (discounts : List (BitVec 64)) : Int :=
  (lines.map fun l => l.1.toInt * l.2.toInt).sum - (discounts.map BitVec.toInt).sum

/-- What an order in memory costs. -/
def costOf (o : Order) : Int := cost (o.items.map fun i => (i.price, i.count)) (o.coupons.map (·.discount))

/-- A 64-bit total is right for a cost: equal to it, up to wrapping around at 64 bits. -/
def RightTotal (t : BitVec 64) (z : Int) : Prop := t.toInt = z.bmod (2 ^ 64)

instance (t z) : Decidable (RightTotal t z) := inferInstanceAs (Decidable (_ = _))

/-- a cost that 64 bits can hold -/
def Fits (z : Int) : Prop := -2 ^ 63 ≤ z ∧ z < 2 ^ 63

/-- The order after a history of calls, errors ignored. -/
def afterOps (R : Ruler) (o : Order) (ops : List Op) : Order := ops.foldl (fun o op => (op.run R o).1) o

/-- No call of the history returned an error. -/
def NoErrors (R : Ruler) : Order → List Op → Prop
  | _, [] => True
  | o, op :: ops => (op.run R o).2 = true ∧ NoErrors R (op.run R o).1 ops

/-- Calls about lines and coupons, as opposed to remarks. -/
def AboutMoney : Op → Prop
  | .update _ => False
  | _ => True

/-- A rule engine whose answers depend on the lines of the order only (not on its total or its other coupons). -/
def LinesOnly (R : Ruler) : Prop := ∀ o o' r, o.items = o'.items → R o r = R o' r

/-- Every coupon of the order is accepted for the order as it is. -/
def CouponsValid (R : Ruler) (o : Order) : Prop := ∀ c ∈ o.coupons, R o c.rule = true

instance (R o) : Decidable (CouponsValid R o) := inferInstanceAs (Decidable (∀ _ ∈ _, _))

/-- What the stored lines and coupons of an order cost. -/
def storedCost (db : Tables) (id : String) : Int :=
  cost ((db.items.filter fun r => r.orderID == id).map fun r => (r.price, r.count)) ((db.coupons.filter fun r => r.orderID == id).map (·.discount))

/-- Every stored order has the total of its stored lines and coupons. -/
def StoredRight (db : Tables) : Prop := ∀ r ∈ db.orders, RightTotal r.total (storedCost db r.id)

instance (db) : Decidable (StoredRight db) := inferInstanceAs (Decidable (∀ _ ∈ _, _))

/-- The identifier given to a new order is not in use anywhere in the tables. -/
def NewOrderID (db : Tables) (id : String) : Prop :=
  (∀ r ∈ db.orders, r.id ≠ id) ∧ (∀ r ∈ db.items, r.orderID ≠ id) ∧ (∀ r ∈ db.coupons, r.orderID ≠ id)

/-- Histories of commands from given tables: each may fail (and then changes nothing); new orders get unused identifiers. -/
inductive Shop (R : Ruler) (db : Tables) : List Cmd → Tables → Prop
  | nil : Shop R db [] db
  | done {cs d d'} {c : Cmd} {ids : NewIDs} : Shop R db cs d → NewOrderID d ids.order → c.run R ids d = some d' → Shop R db (cs ++ [c]) d'
  | failed {cs d} {c : Cmd} {ids : NewIDs} : Shop R db cs d → c.run R ids d = none → Shop R db (cs ++ [c]) d

/-- Commands that do not add to an order that exists. -/
def NotAdding : Cmd → Prop
  | .addItem _ _ => False
  | .addCoupon _ _ => False
  | _ => True

end Ddd.Spec
