import Verif.Model.Load
import Verif.Spec.Store
/-!
# Specification: what loading from a store means
-/
namespace Ddd.Spec
open Ddd Ddd.Load

/-- `db.Where(q)` of gorm: same table, and equal in every column that is not zero in `q` -/
def Matches (q m : Model) : Prop := m.typ = q.typ ∧ (q.id ≠ 0 → m.id = q.id) ∧ (q.parent ≠ 0 → m.parent = q.parent) ∧ (q.data ≠ 0 → m.data = q.data)

/-- the rows of the store that `q` selects -/
def RowsFor (st : Store) (q m : Model) : Prop := st m.key = some m ∧ Matches q m

/-- the database answers each query with the rows of `st` (in any order), each once, or fails -/
def Reads (find : List Model → Model → Res (List Model)) (st : Store) : Prop :=
  ∀ t q l, find t q = .ok l → l.Nodup ∧ ∀ m, m ∈ l ↔ RowsFor st q m

/-- neither the database nor a converter answers with "entity not found" -/
def Honest (env : LEnv) : Prop :=
  (∀ t q e, env.find t q = .err e → e.is .notFound = false) ∧
  ∀ t c, env.reg t = some c → (∀ o p e, c.e2m o p = .err e → e.is .notFound = false) ∧ ∀ m o e, c.m2e m o = .err e → e.is .notFound = false

/-- the object an argument may write to besides new objects -/
def target (s : LSt) : Arg → Option Nat
  | .ptr v _ => s.ptrs v
  | .entity p => some p
  | _ => none

/-- the slice variable an argument writes to -/
def sliceVar : Arg → Option Var
  | .slice v _ _ => some v
  | _ => none

/-- the pointer variable an argument writes to -/
def ptrVar : Arg → Option Var
  | .ptr v _ => some v
  | _ => none

/-- sane arguments: existing objects; no object and no variable is named twice -/
structure Apart (parent : Nat) (args : List Arg) (s : LSt) : Prop where
  known : parent < s.next
  exist : ∀ a ∈ args, ∀ p, target s a = some p → p < s.next
  notParent : ∀ a ∈ args, target s a ≠ some parent
  targets : (args.filterMap (target s)).Nodup
  slices : (args.filterMap sliceVar).Nodup
  ptrs : (args.filterMap ptrVar).Nodup

/-- what the variable or object of one argument holds after loading; `par` is the parent as loaded -/
def ArgLoaded (env : LEnv) (st : Store) (par : Obj) (s s' : LSt) : Arg → Prop
  | .slice v _ t => ∃ c q l ps, env.reg t = some c ∧ c.e2m (zero t) (some par) = .ok q ∧ l.Nodup ∧ (∀ m, m ∈ l ↔ RowsFor st q m) ∧
      s'.slices v = s.slices v ++ ps ∧ ps.Nodup ∧ (∀ p ∈ ps, s.next ≤ p) ∧ List.Forall₂ (fun m p => c.m2e m (zero t) = .ok (s'.obj p)) l ps
  | .ptr v t => match s.ptrs v with
    | some p => ∃ c q, env.reg (s.obj p).typ = some c ∧ c.e2m (s.obj p) (some par) = .ok q ∧
        ((∃ m, RowsFor st q m ∧ s'.ptrs v = some p ∧ c.m2e m (s.obj p) = .ok (s'.obj p)) ∨ ((∀ m, ¬ RowsFor st q m) ∧ s'.ptrs v = none))
    | none => ∃ c q, env.reg t = some c ∧ c.e2m (zero t) (some par) = .ok q ∧
        ((∃ m p, RowsFor st q m ∧ s'.ptrs v = some p ∧ s.next ≤ p ∧ c.m2e m (zero t) = .ok (s'.obj p)) ∨ ((∀ m, ¬ RowsFor st q m) ∧ s'.ptrs v = none))
  | .entity p => ∃ c q, env.reg (s.obj p).typ = some c ∧ c.e2m (s.obj p) (some par) = .ok q ∧
      ((∃ m, RowsFor st q m ∧ c.m2e m (s.obj p) = .ok (s'.obj p)) ∨ ((∀ m, ¬ RowsFor st q m) ∧ s'.obj p = s.obj p))
  | _ => False

/-- the arguments the documentation allows (`engine.go:640`) -/
def Fine : Arg → Prop
  | .slice _ e _ => e = .pointer
  | .ptr .. => True
  | .entity _ => True
  | _ => False

/-- every type is registered, and neither the database nor the converters fail -/
structure AllWork (env : LEnv) : Prop where
  reg : ∀ t, ∃ c, env.reg t = some c
  find : ∀ t q, ∃ l, env.find t q = .ok l
  e2m : ∀ t c, env.reg t = some c → ∀ o p, ∃ q, c.e2m o p = .ok q
  m2e : ∀ t c, env.reg t = some c → ∀ m o, ∃ o', c.m2e m o = .ok o'

end Ddd.Spec
