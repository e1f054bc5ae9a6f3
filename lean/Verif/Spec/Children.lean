import Verif.Model.Children
/-!
# Vocabulary for child discovery
-/
namespace Ddd.Children

variable {N : Type}

/-- the type of a field says that it holds children: an entity (other than the embedded `*BaseEntity`), a slice or a map of entities -/
def Ty.holds (t : Ty) : Prop := (t.impl = true ∧ t.isBase = false) ∨ t.shape = .slice true ∨ t.shape = .map true

/-- the entities in a value -/
def Val.entities : Val N → List (Option N)
  | .nil => []
  | .ent e => [some e]
  | .elems l => l
  | .entries l => l
  | .other => []

/-- the value has the type (for the types that hold children) -/
def Fits (f : Field N) : Prop :=
  if f.ty.impl = true ∧ f.ty.isBase = false then (f.ty.shape = .other ∨ f.val = .nil ∨ ∃ e, f.val = .ent e)
  else match f.ty.shape with
    | .slice true => f.val = .nil ∨ ∃ l, f.val = .elems l
    | .map true => f.val = .nil ∨ ∃ l, f.val = .entries l
    | _ => True

/-- fields of a Go struct: distinct names (the blank name is not exported) and values of their types -/
structure Layout (fs : List (Field N)) : Prop where
  names : ((fs.filter (·.exported)).map Field.name).Nodup
  fits : ∀ f ∈ fs, Fits f

/-- a field on which the code panics: a struct (not a pointer to one) that implements the entity interface, or a nil interface among the elements -/
def Field.bad (f : Field N) : Prop :=
  f.exported = true ∧ ((f.ty.impl = true ∧ f.ty.isBase = false ∧ f.ty.shape = .other) ∨ (f.ty.holds ∧ none ∈ f.val.entities))

end Ddd.Children
