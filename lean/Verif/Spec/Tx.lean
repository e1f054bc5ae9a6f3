import Verif.Model.Tx
/-! # Specification vocabulary: transactions of the MySQL executor -/
namespace Ddd.Tx
variable {W : Type}

/-- the call is made in transaction `t`: its context carries `t` for its executor. (`Begin` is made in no transaction, whatever its context.) -/
def inTx (t : Nat) : Op W → Bool
  | .begin .. => false
  | .exec e c _ _ => c.value e.key == some t
  | .query e c _ => c.value e.key == some t
  | .commit e c _ => c.value e.key == some t
  | .rollback e c _ => c.value e.key == some t

/-- the call asks the database to end transaction `t`. -/
def ends (t : Nat) : Op W → Bool
  | .commit e c _ => e.db.isSome && c.value e.key == some t
  | .rollback e c _ => e.db.isSome && c.value e.key == some t
  | _ => false

/-- a commit that becomes durable if the transaction is still open. -/
def commits (t : Nat) : Op W → Bool
  | .commit e c f => e.db.isSome && c.value e.key == some t && f != some false
  | _ => false

/-- transaction `t` is not committed in `ops`: every commit of it comes after it was ended already, or fails. -/
def NotCommitted (t : Nat) (ops : List (Op W)) : Prop :=
  ∀ a o b, ops = a ++ o :: b → commits t o = true → ∃ o' ∈ a, ends t o' = true

/-- the statements performed in transaction `t` by `ops`, in order. -/
def performed (t : Nat) (ops : List (Op W)) : List W :=
  ops.flatMap fun
    | .exec e c ws done => if c.value e.key = some t then ws.take done else []
    | _ => []

/-- What everybody else sees: the calls not made in transaction `t` with what they returned. -/
def seenByOthers (t : Nat) (h : List (Op W × Out W)) : List (Op W × Out W) := h.filter fun x => !inTx t x.1

end Ddd.Tx
