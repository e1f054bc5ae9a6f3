import Mathlib.Data.List.Basic
/-!
# Model diff and MySQL executor

Models `/repo/executor/mysql/diff.go` and the write operations of `executor.go` (`opMap`). Go values of model structs are trees. Anything that is not a struct or a pointer to one is a leaf: a number with
0 for Go's zero value (also a pointer to something else, a pointer to a pointer, slices, maps, interfaces); equal numbers mean the same value.
-/
namespace Ddd.Diff

/-- A struct field as seen by reflection. `tagged`: the gorm tag has a part beginning with "embedded" (`diff.go:26-34`). `spread`: gorm really
spreads the columns of the struct (as opposed to storing it in one column, like `time.Time`), with the column prefix `pre` (`embeddedPrefix`; empty: none). -/
structure Fld where
  name : Nat
  exported : Bool
  anon : Bool
  tagged : Bool
  spread : Bool
  pre : List Nat
  deriving DecidableEq, Repr

mutual
/-- a value: `nil` and `ref` are pointers to structs (What `diffValue` distinguishes (`executor/mysql/diff.go:36-74`)) -/
inductive Val where
  | leaf (v : Nat)
  | nil
  | ref (v : Val)
  | struct (fs : Flds)
/-- the fields of a struct (`executor/mysql/diff.go:76-102`) -/
inductive Flds where
  | nil
  | cons (f : Fld) (v : Val) (rest : Flds)
end

deriving instance DecidableEq for Val, Flds

/-- What reflection says about leaves: `comparable` (`reflect.Value.Comparable`), `selfEq` (`Equal`/`DeepEqual` with itself; false for NaN and functions). (`executor/mysql/diff.go:65-73`.) -/
structure Go where
  comparable : Nat → Bool
  selfEq : Nat → Bool

mutual
/-- `reflect.Value.IsZero` (Called in `executor/mysql/diff.go:36-74`) -/
def Val.isZero : Val → Bool
  | .leaf v => decide (v = 0)
  | .nil => true
  | .ref _ => false
  | .struct fs => fs.isZero
/-- `reflect.Value.IsZero` of a struct (called in `executor/mysql/diff.go:36-74`). -/
def Flds.isZero : Flds → Bool
  | .nil => true
  | .cons _ v rest => v.isZero && rest.isZero
end

/-- `reflect.Indirect(v).Kind() == reflect.Struct` (`diff.go:85`) -/
def Val.isStruct : Val → Bool
  | .struct _ => true
  | .ref (.struct _) => true
  | _ => false

/-- `a.Equal(b)` or `reflect.DeepEqual` of leaves (`executor/mysql/diff.go:65-73`) -/
def leafEq (go : Go) (a b : Nat) : Bool := decide (a = b) && go.selfEq a

mutual
/-- `diffValue` (`diff.go:36-74`). `ro`: an enclosing field is unexported (and not embedded), `canI`: `CanInterface`. -/
def diffVal (go : Go) (ro canI : Bool) : Val → Val → List Nat × Bool
  | .nil, .nil => ([], false)
  | .nil, .ref _ => ([], true)
  | .ref _, .nil => ([], true)
  | .ref a, .ref b => diffVal go ro canI a b
  | .struct fs, .struct gs => if fs.isZero && gs.isZero then ([], false) else (diffFlds go ro fs gs, decide (diffFlds go ro fs gs ≠ []))
  | .leaf a, .leaf b =>
    if a = 0 ∧ b = 0 then ([], false)
    else if go.comparable a && go.comparable b then ([], !leafEq go a b)
    else if canI then ([], !leafEq go a b)
    else ([], true)
  | _, _ => ([], true)
/-- `diffStruct` (`diff.go:76-100`); the first argument is the current value -/
def diffFlds (go : Go) (ro : Bool) : Flds → Flds → List Nat
  | .cons f v fs, .cons _ w gs =>
    (if (diffVal go (ro || (!f.exported && !f.anon)) (!ro && f.exported) v w).2 then
      (if v.isStruct && (f.anon || f.tagged) then (diffVal go (ro || (!f.exported && !f.anon)) (!ro && f.exported) v w).1 else [f.name])
     else []) ++ diffFlds go ro fs gs
  | _, _ => []
end

/-- `DiffModel` (`diff.go:104-110`): `none` is a nil interface. -/
def diffModel (go : Go) (curr : Flds) (prev : Option Flds) : List Nat :=
  match prev with
  | none => []
  | some p => diffFlds go false curr p

/-! ## the executor -/

/-- a model: table (Go type), primary key, columns (`IModel` (`executor/mysql/executor.go:32-35`)) -/
structure Model where
  table : Nat
  id : Nat
  fields : Flds

/-- a column: the prefixes of the enclosing embedded structs and the name of the field (gorm's naming of columns, used by `executor/mysql/diff.go:88-98`) -/
abbrev Col := List Nat × Nat

/-- columns of an embedded struct, with its prefix (gorm's `embeddedPrefix`; no counterpart in `executor/mysql/diff.go`, which uses field names) -/
def pfx (p : List Nat) (l : List (Col × Val)) : List (Col × Val) := l.map fun x => ((p ++ x.1.1, x.1.2), x.2)

/-- the columns of a model with their values, as gorm sees them; the columns of an embedded struct that is a nil pointer are left out (gorm writes NULL) (gorm, called from `executor/mysql/executor.go:77-139`) -/
def Flds.cols : Flds → List (Col × Val)
  | .nil => []
  | .cons f v rest =>
    (match f.spread, v with
     | true, .struct gs => pfx f.pre gs.cols
     | true, .ref (.struct gs) => pfx f.pre gs.cols
     | true, .nil => []
     | _, v => [(([], f.name), v)]) ++ rest.cols

/-- a row: column values; `none` is NULL (The database behind `executor/mysql/executor.go:77-139`) -/
abbrev Row := Col → Option Val

/-- the tables: rows by table and primary key (The database behind `executor/mysql/executor.go:77-139`) -/
abbrev DB := Nat → Nat → Option Row

/-- Writing or deleting a row: the database behind `executor/mysql/executor.go:77-139`. -/
def setRow (db : DB) (t i : Nat) (r : Option Row) : DB := fun t' i' => if t' = t ∧ i' = i then r else db t' i'

/-- the row of a struct (gorm, called from `executor/mysql/executor.go:77-139`) -/
def Flds.row (fs : Flds) : Row := fun c => fs.cols.lookup c

/-- the row of a model (gorm, called from `executor/mysql/executor.go:77-139`) -/
def Model.row (m : Model) : Row := m.fields.row

/-- `db.Create(pos)` (`executor.go:78-86`): one `INSERT` of all rows; a duplicate primary key makes it fail without effect -/
def insertAll (db : DB) : List Model → Option DB
  | [] => some db
  | m :: ms => if (db m.table m.id).isSome then none else insertAll (setRow db m.table m.id (some m.row)) ms

/-- `db.Select(fields).Updates(m)` (`executor.go:94`): writes the listed columns of the row with the primary key of `m`; no row, no effect. `look`: gorm's `Schema.LookUpField`, which finds one column for a field name. -/
def updateCols (look : Nat → Option Col) (db : DB) (m : Model) (fields : List Nat) : DB :=
  match db m.table m.id with
  | none => db
  | some r => setRow db m.table m.id (some fun c => if some c ∈ fields.map look then m.row c else r c)

/-- one model of an update (`executor.go:89-101`); the outer `none`: there is no entry in `PrevModels`, then `Save` writes the whole row -/
def updateOne (go : Go) (look : Nat → Option Col) (db : DB) (m : Model) (prev : Option (Option Model)) : DB :=
  match prev with
  | none => setRow db m.table m.id (some m.row)
  | some p =>
    if diffModel go m.fields (p.map Model.fields) = [] then db
    else updateCols look db m (diffModel go m.fields (p.map Model.fields))

/-- the update loop (`executor.go:87-104`) -/
def updateAll (go : Go) (look : Nat → Option Col) (db : DB) : List Model → List (Option Model) → DB
  | [], _ => db
  | m :: ms, [] => updateAll go look (updateOne go look db m none) ms []
  | m :: ms, p :: ps => updateAll go look (updateOne go look db m (some p)) ms ps

/-- the SQL statements of the same loop: the primary keys of the rows written and the fields selected (`none`: all) (`executor/mysql/executor.go:87-104`) -/
def updateStmts (go : Go) : List Model → List (Option Model) → List (Nat × Option (List Nat))
  | [], _ => []
  | m :: ms, [] => (m.id, none) :: updateStmts go ms []
  | m :: ms, p :: ps => (if diffModel go m.fields (p.map Model.fields) = [] then [] else [(m.id, some (diffModel go m.fields (p.map Model.fields)))]) ++ updateStmts go ms ps

/-- delete (`executor.go:105-125`), primary key of one column: by the ID of the models, in the table of the first one -/
def deleteAll (db : DB) (ms : List Model) : DB :=
  match ms with
  | [] => db
  | m :: _ => fun t i => if t = m.table ∧ i ∈ ms.map Model.id then none else db t i

end Ddd.Diff
