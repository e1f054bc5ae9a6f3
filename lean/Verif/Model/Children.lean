import Verif.Model.Snapshot
/-!
# Child discovery

Models `findChildren` (`/repo/snapshot.go:134-189`): which fields of an entity are its children, found by reflection.
-/
namespace Ddd.Children

/-- What reflection says about the type of a field. `impl`: it implements `IEntity`; `isBase`: it is `*BaseEntity`; `shape`: its kind.
`ref`: pointer, interface or another kind that can be nil and is no slice and no map; `other`: a kind for which `IsNil` panics (struct, array, number, string, ...). (what `findChildren` asks of `reflect` (`snapshot.go:147-186`).) -/
inductive Shape where
  | ref
  | slice (elemImpl : Bool)
  | map (elemImpl : Bool)
  | other
  deriving DecidableEq, Repr

/-- the type of a field (`snapshot.go:147-186`) -/
structure Ty where
  impl : Bool
  isBase : Bool
  shape : Shape
  deriving DecidableEq, Repr

variable (N : Type)

/-- The value of a field. In lists `none` is an element that is a nil interface (a nil pointer in a list of pointers is a node like any other).
`entries`: the values of a map in the order in which `MapKeys` returns their keys. (`snapshot.go:147-186`.) -/
inductive Val where
  | nil
  | ent (e : N)
  | elems (l : List (Option N))
  | entries (l : List (Option N))
  | other

/-- a field: name, `CanInterface` (exported), type, value (`snapshot.go:147-186`) -/
structure Field where
  name : Key
  exported : Bool
  ty : Ty
  val : Val N

/-- An entity as `findChildren` sees it: the result of its own `GetChildren` (`none`: nil) and, if it is a (pointer to a) struct, its fields in order. (`snapshot.go:136-146`.) -/
structure Obj where
  own : Option (List (Key × List N))
  fields : Option (List (Field N))

variable {N}

/-- all elements, or `none` when one is a nil interface: the type assertion panics (`snapshot.go:173-175,181-183`) -/
def elems (l : List (Option N)) : Option (List N) := l.mapM id

/-- One field (`snapshot.go:163-186`). Outer `none`: panic; inner `none`: no child group. -/
def fieldGroup (f : Field N) : Option (Option (List N)) :=
  if !f.exported then some none
  else if f.ty.impl && !f.ty.isBase then
    -- line 165: `fieldVal.IsNil()` panics unless the kind can be nil
    match f.ty.shape, f.val with
    | .other, _ => none
    | _, .nil => some (some [])
    | _, .ent e => some (some [e])
    | _, _ => none
  else match f.ty.shape, f.val with
    | .slice true, .nil => some (some [])
    | .slice true, .elems l => (elems l).map some
    | .map true, .nil => some (some [])
    | .map true, .entries l => (elems l).map some
    | _, _ => some none

/-- the loop over the fields (`snapshot.go:152-187`); `acc` is the map so far -/
def collect (acc : List (Key × List N)) : List (Field N) → Option (List (Key × List N))
  | [] => some acc
  | f :: fs =>
    if f.name ∈ acc.map Prod.fst then collect acc fs
    else match fieldGroup f with
      | none => none
      | some none => collect acc fs
      | some (some l) => collect (acc ++ [(f.name, l)]) fs

/-- `findChildren` (`snapshot.go:136-189`); `none`: panic. A nil map has no entries. -/
def findChildren (o : Obj N) : Option (List (Key × List N)) :=
  match o.own with
  | some c => some c
  | none =>
    match o.fields with
    | none => some []
    | some fs => collect [] fs

end Ddd.Children
