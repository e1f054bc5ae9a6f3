import Verif.Model.Keys
/-!
# Vocabulary of C111: a store of rows by key
-/
namespace Ddd.Keys

/-- the rows of a table by primary key -/
abbrev Store := List Nat → Option Rec

/-- the row with a key -/
def Schema.at (s : Schema) (t : Table) : Store := fun k => t.find? fun r => s.key r = k

/-- the database's guarantee: no two rows with the same primary key -/
def Keyed (s : Schema) (t : Table) : Prop := (t.map s.key).Nodup

/-- what the changes of an entity ask for: write the fields in which the model differs from the previous one (key fields cannot be written) -/
def overwrite (s : Schema) (m prev : Rec) (r : Rec) : Rec := fun c => if c ∈ s.cols ∧ m c ≠ prev c ∧ c ∉ s.pk then m c else r c

/-- what an action should do: insert, overwrite or delete exactly the rows with the keys of its models -/
def wanted (s : Schema) : Action → Store → Store
  | .insert ms, S => fun k => match ms.find? (fun m => s.key m.vals = k) with | some m => some m.vals | none => S k
  | .update ps, S => fun k => (S k).map fun r => (ps.filter fun p => s.key p.1.vals = k).foldl (fun r p => overwrite s p.1.vals p.2 r) r
  | .delete ms, S => fun k => if k ∈ ms.map (fun m => s.key m.vals) then none else S k

/-- the same for a list of actions -/
def wantedAll (s : Schema) (as : List Action) (S : Store) : Store := as.foldl (fun S a => wanted s a S) S

/-- a table has a primary key, and an auto-increment column belongs to it -/
def Valid (s : Schema) : Prop := s.pk ≠ [] ∧ ∀ a, s.auto = some a → a ∈ s.pk

/-- a model whose key fields are set -/
def Whole (s : Schema) (m : Mod) : Prop := ∀ c ∈ s.pk, m.vals c ≠ 0

/-- `GetID` answers the text of the key, if the key is one column -/
def Named (text : Nat → Nat) (s : Schema) (m : Mod) : Prop := ∀ c, s.pk = [c] → m.getID = text (m.vals c)

/-- actions as the executor is meant to get them: keys set by the application, `GetID` the key of tables with one key column -/
def Proper (text : Nat → Nat) (s : Schema) : Action → Prop
  | .insert ms => ∀ m ∈ ms, Whole s m
  | .update ps => ∀ p ∈ ps, Whole s p.1
  | .delete ms => ∀ m ∈ ms, Whole s m ∧ Named text s m

/-- an insert meets a key that is already there -/
def Clash (s : Schema) (t : Table) (ms : List Mod) : Prop := ¬ (ms.map fun m => s.key m.vals).Nodup ∨ ∃ m ∈ ms, s.at t (s.key m.vals) ≠ none

end Ddd.Keys
