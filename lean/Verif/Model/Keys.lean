import Mathlib.Data.List.Basic
/-!
# Primary keys in the MySQL executor

`Model/Diff.lean` treats the row of a model as found by one ID. Here the way the executor finds rows is modelled (`executor/mysql/executor.go:77-139`): updates go by the primary key fields of the model that are not zero, deletes of
a table with one key column by `GetID()`, deletes of other tables by all key fields. One table; columns are flat. What gorm does for a call (which conditions `Updates`, `Delete` and `Create` add) is modelled as gorm v2 documents it; gorm is
not part of the repository. Not modelled: soft delete, hooks of models, associations, database defaults, implicit conversions between strings and numbers in MySQL (`text` is the text a column value is compared as).
-/
namespace Ddd.Keys

/-- values of the columns; 0 is Go's zero value (a model or a row in `executor/mysql/executor.go:77-139`) -/
abbrev Rec := Nat → Nat

/-- a model type (`schema.Parse`, `executor/mysql/executor.go:107`): columns, primary key, the auto-increment column if there is one -/
structure Schema where
  cols : List Nat
  pk : List Nat
  auto : Option Nat
  deriving DecidableEq, Repr

/-- an `IModel` (`executor/mysql/executor.go:32-35`): its fields and what `GetID` answers (the ID of the entity, as a rule) -/
structure Mod where
  vals : Rec
  getID : Nat

/-- rows of the table behind `executor/mysql/executor.go:77-139` -/
abbrev Table := List Rec

/-- the primary key of a row or a model (`s.PrimaryFields`, `executor/mysql/executor.go:112`) -/
def Schema.key (s : Schema) (r : Rec) : List Nat := s.pk.map r

/-- what the statements of `executor/mysql/executor.go:77-139` can report: a duplicate key; gorm's `ErrMissingWhereClause` -/
inductive Err where
  | duplicate
  | missingWhere
  deriving DecidableEq, Repr

/-- the next value of an auto-increment column (database behind `db.Create`, `executor/mysql/executor.go:85`): above all values in the table -/
def next (c : Nat) (t : Table) : Nat := t.foldl (fun n r => max n (r c)) 0 + 1

/-- the row that `INSERT` stores for a model (`executor/mysql/executor.go:85`): a zero auto-increment column gets the next value -/
def stored (s : Schema) (t : Table) (m : Mod) : Rec :=
  match s.auto with
  | some a => if m.vals a = 0 then fun c => if c = a then next a t else m.vals c else m.vals
  | none => m.vals

/-- the rows of an `INSERT` one after the other (`executor/mysql/executor.go:85`) -/
def insertRows (s : Schema) : Table → List Mod → Option Table
  | t, [] => some t
  | t, m :: ms => if s.key (stored s t m) ∈ t.map s.key then none else insertRows s (t ++ [stored s t m]) ms

/-- `db.Create(pos)` (`executor/mysql/executor.go:78-86`): one statement, all rows or none -/
def insert (s : Schema) (t : Table) (ms : List Mod) : Table × Option Err :=
  match insertRows s t ms with
  | some t' => (t', none)
  | none => (t, some .duplicate)

/-- `DiffModel` on flat models (`executor/mysql/diff.go:104-110`) -/
def changed (s : Schema) (m prev : Rec) : List Nat := s.cols.filter fun c => m c ≠ prev c

/-- `db.Select(fields).Updates(m)` (`executor/mysql/executor.go:94`): key columns are never written; the condition consists of the key fields that are not zero; without fields to write there is no statement, without a condition an error -/
def updateStmt (s : Schema) (t : Table) (m : Rec) (fields : List Nat) : Table × Option Err :=
  if fields.filter (fun c => c ∉ s.pk) = [] then (t, none)
  else if s.pk.filter (fun c => m c ≠ 0) = [] then (t, some .missingWhere)
  else
    (t.map fun r =>
      if (s.pk.filter fun c => m c ≠ 0).all (fun c => r c = m c) then fun c => if c ∈ fields.filter (fun c => c ∉ s.pk) then m c else r c
      else r, none)

/-- one model of an update (`executor/mysql/executor.go:88-97`); the engine hands over a previous model with every model (`engine.go:950-956`), so `Save` is not modelled -/
def updateOne (s : Schema) (t : Table) (m : Mod) (prev : Rec) : Table × Option Err :=
  if changed s m.vals prev = [] then (t, none) else updateStmt s t m.vals (changed s m.vals prev)

/-- the update loop (`executor/mysql/executor.go:87-104`); it stops at the first error -/
def update (s : Schema) : Table → List (Mod × Rec) → Table × Option Err
  | t, [] => (t, none)
  | t, (m, prev) :: rest =>
    match updateOne s t m prev with
    | (t', some e) => (t', some e)
    | (t', none) => update s t' rest

/-- `db.Delete(m)` (`executor/mysql/executor.go:126-131`): by all key fields; if all are zero there is no condition, which is an error -/
def deleteOne (s : Schema) (t : Table) (m : Mod) : Table × Option Err :=
  if s.pk.all (fun c => m.vals c = 0) then (t, some .missingWhere) else (t.filter fun r => s.key r ≠ s.key m.vals, none)

/-- the loop for other than one key column (`executor/mysql/executor.go:126-131`) -/
def deleteLoop (s : Schema) : Table → List Mod → Table × Option Err
  | t, [] => (t, none)
  | t, m :: ms =>
    match deleteOne s t m with
    | (t', some e) => (t', some e)
    | (t', none) => deleteLoop s t' ms

/-- `OpDelete` (`executor/mysql/executor.go:105-132`): one key column: one statement, by what `GetID` answers; `text v` is the text the column value `v` is equal to -/
def delete (text : Nat → Nat) (s : Schema) (t : Table) (ms : List Mod) : Table × Option Err :=
  match s.pk with
  | [c] => (t.filter fun r => text (r c) ∉ ms.map Mod.getID, none)
  | _ => deleteLoop s t ms

/-- an `Action` on the table (`executor.go:36-46`) -/
inductive Action where
  | insert (ms : List Mod)
  | update (ps : List (Mod × Rec))
  | delete (ms : List Mod)

/-- `Exec` (`executor/mysql/executor.go:214-229`) -/
def exec (text : Nat → Nat) (s : Schema) (t : Table) : Action → Table × Option Err
  | .insert ms => insert s t ms
  | .update ps => update s t ps
  | .delete ms => delete text s t ms

/-- the actions of a persist in order, up to the first error (`engine.go:1150-1156`) -/
def execAll (text : Nat → Nat) (s : Schema) : Table → List Action → Table × Option Err
  | t, [] => (t, none)
  | t, a :: as =>
    match exec text s t a with
    | (t', some e) => (t', some e)
    | (t', none) => execAll text s t' as

end Ddd.Keys
