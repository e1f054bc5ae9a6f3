import Mathlib.Data.List.Sort
/-!
# Entity graph, walk, change detection

Models `/repo/snapshot.go`. Nodes are pointers (identity comparison, as in Go where `IEntity` values
holding pointers are compared). The node type is a parameter `N`; the stage uses `Option Ptr`, `none`
being its `EntityContainer`.
-/

namespace Ddd

/-- Field name of a child group. Go uses strings (`snapshot.go:35`); only equality and the total order
used by `sort.Strings` (`snapshot.go:216`) matter, so a key is represented by its rank. -/
abbrev Key := Nat

/-- An entity graph: `kids n` is the result of `findChildren(n)` (`snapshot.go:136-189`) as a list of
map entries. The order of this list is *not* meaningful (Go map); iteration order is a parameter
(`MapOrder`) wherever the Go code ranges over the map. `height` is a ghost function witnessing that
the graph is acyclic: on a cyclic graph `walk`/`entityDiff` recurse forever in Go (stack overflow), so
such graphs are outside the model. `keys`: a Go map has each key once. -/
structure Graph (N : Type) where
  kids : N → List (Key × List N)
  height : N → Nat
  wf : ∀ {p : N} {k : Key} {cs : List N} {c : N}, (k, cs) ∈ kids p → c ∈ cs → height c < height p
  keys : ∀ p, ((kids p).map Prod.fst).Nodup

/-- Iteration order of Go maps `map[string][]IEntity`: an arbitrary permutation, chosen per node. (`range children` in `snapshot.go:125,200,225-250`.) -/
structure MapOrder (N : Type) where
  ord : N → List (Key × List N) → List (Key × List N)
  perm : ∀ n l, (ord n l).Perm l

/-- A call `f(entity, parent, children)` made by `walk` (`snapshot.go:194`); `parent = none` is nil. -/
structure Visit (N : Type) where
  entity : N
  parent : Option N
  deriving DecidableEq

section
variable {N : Type} [DecidableEq N]

/-- `walk` (`snapshot.go:192-206`), recursion bounded by `fuel` (see `walk_eq`: the bound
is never reached). Produces the sequence of calls of `f` when `f` returns no error; callers stop at the
first error by folding over this sequence. `range children` follows the map order `o`. -/
def walkFuel (g : Graph N) (o : MapOrder N) : Nat → N → Option N → List (Visit N)
  | 0, _, _ => []
  | fuel + 1, e, par =>
    ⟨e, par⟩ :: (o.ord e (g.kids e)).flatMap fun grp =>
      grp.2.flatMap fun c => walkFuel g o fuel c (some e)

/-- `walk(entity, parent, f)` (`snapshot.go:192-206`). -/
def walk (g : Graph N) (o : MapOrder N) (e : N) (par : Option N) : List (Visit N) :=
  walkFuel g o (g.height e + 1) e par

/-! ## simpleSet (`snapshot.go:63-119`) -/

/-- `simpleSet` (`snapshot.go:63`): map from entity to index, as a list of entries. -/
abbrev SimpleSet (N : Type) := List (N × Nat)

/-- membership test `_, in := s[e]`. (`snapshot.go:65-94`.) -/
def SimpleSet.has (s : SimpleSet N) (e : N) : Bool := s.any fun x => x.1 == e

/-- map assignment `s[n] = i`: overwrite the entry of `n` or add one. (`snapshot.go:113-119`.) -/
def SimpleSet.put (s : SimpleSet N) (n : N) (i : Nat) : SimpleSet N :=
  if s.has n then s.map fun x => if x.1 = n then (n, i) else x else s ++ [(n, i)]

/-- `makeEntitySet` (`snapshot.go:113-119`). -/
def makeEntitySet (nodes : List N) : SimpleSet N :=
  nodes.zipIdx.foldl (fun s x => s.put x.1 x.2) []

/-- `Diff` (`snapshot.go:65-73`). -/
def SimpleSet.diff (s s2 : SimpleSet N) : SimpleSet N := s.filter fun x => !s2.has x.1

/-- `Inter` (`snapshot.go:85-94`): keeps the indices of the receiver. -/
def SimpleSet.inter (s s2 : SimpleSet N) : SimpleSet N := s.filter fun x => s2.has x.1

/-- `ToSlice` (`snapshot.go:96-107`): entries (in any map order) stably sorted by index. -/
def SimpleSet.toSlice (s : SimpleSet N) : List N :=
  (s.insertionSort fun a b => a.2 ≤ b.2).map Prod.fst

/-! ## entityDiff (`snapshot.go:208-268`) -/

/-- `changeType` (`snapshot.go:24-31`), in `iota` order. -/
inductive ChangeType where
  | new | dirty | delete | clear
  deriving DecidableEq, Repr

/-- numeric value of the constant, used by the sort at `snapshot.go:272-274`. -/
def ChangeType.rank : ChangeType → Nat
  | .new => 0 | .dirty => 1 | .delete => 2 | .clear => 3

/-- `entityChanged` (`snapshot.go:41-46`). -/
structure Change (N : Type) where
  ctype : ChangeType
  parent : N
  key : Key
  children : List N

/-- A snapshot pool restricted to the recorded child lists: `pool[n]` is nil or has
`children map[string][]IEntity` (`snapshot.go:33-38`). -/
abbrev KidPool (N : Type) := N → Option (List (Key × List N))

/-- `pool[parent].children[key]`, empty when there is no entry (`snapshot.go:220-223`). -/
def snapKids (pool : KidPool N) (parent : N) (key : Key) : List N :=
  match pool parent with
  | none => []
  | some kids => ((kids.find? fun g => g.1 == key).map Prod.snd).getD []

/-- `s1.Diff(s2).ToSlice()` (`snapshot.go:224`). -/
def createdOf (cur old : List N) : List N := ((makeEntitySet cur).diff (makeEntitySet old)).toSlice
/-- `s1.Inter(s2).ToSlice()` (`snapshot.go:224`). -/
def remainOf (cur old : List N) : List N := ((makeEntitySet cur).inter (makeEntitySet old)).toSlice
/-- `s2.Diff(s1).ToSlice()` (`snapshot.go:224`). -/
def deletedOf (cur old : List N) : List N := ((makeEntitySet old).diff (makeEntitySet cur)).toSlice

/-- `keys` sorted (`snapshot.go:212-216`), together with their lists. -/
def sortedKids (g : Graph N) (p : N) : List (Key × List N) :=
  (g.kids p).insertionSort fun a b => a.1 ≤ b.1

/-- the "new children" record, only when non-empty (`snapshot.go:225-231,244-250,257-263`). -/
def mkChange (t : ChangeType) (parent : N) (key : Key) (children : List N) : List (Change N) :=
  if children.isEmpty then [] else [{ ctype := t, parent := parent, key := key, children := children }]

/-- `entityDiff` (`snapshot.go:209-268`) with recursion bounded by `fuel` (see `entityDiff_eq`: the bound
is never reached). Order of the output follows the code: per sorted key the created group, the diffs of the
created children, the dirty group, the diffs of the remaining children, the deleted group. -/
def entityDiffFuel (g : Graph N) (dirty : N → Bool) (pool : KidPool N) : Nat → N → List (Change N)
  | 0, _ => []
  | fuel + 1, parent =>
    (sortedKids g parent).flatMap fun grp =>
      let old := snapKids pool parent grp.1
      let created := createdOf grp.2 old
      let remain := remainOf grp.2 old
      let deleted := deletedOf grp.2 old
      mkChange .new parent grp.1 created
        ++ (created.flatMap fun c => entityDiffFuel g dirty pool fuel c)
        ++ mkChange .dirty parent grp.1 (remain.filter dirty)
        ++ (remain.flatMap fun c => entityDiffFuel g dirty pool fuel c)
        ++ mkChange .delete parent grp.1 deleted

/-- `entityDiff(parent, pool)` (`snapshot.go:209-268`). -/
def entityDiff (g : Graph N) (dirty : N → Bool) (pool : KidPool N) (parent : N) : List (Change N) :=
  entityDiffFuel g dirty pool (g.height parent + 1) parent

/-! ## handleEntityMove (`snapshot.go:270-303`) -/

/-- An `entityChanged` whose `children` slice is edited in place: backing array `buf` and length `len`. (`snapshot.go:41-61`.) -/
structure Item (N : Type) where
  ctype : ChangeType
  parent : N
  key : Key
  buf : List N
  len : Nat

/-- the slice view of an item. (`snapshot.go:45`.) -/
def Item.children (it : Item N) : List N := it.buf.take it.len

/-- Auxiliary: the items given to `handleEntityMove` (`snapshot.go:270`). -/
def Item.ofChange (c : Change N) : Item N :=
  { ctype := c.ctype, parent := c.parent, key := c.key, buf := c.children, len := c.children.length }

/-- Auxiliary: the items returned by `handleEntityMove` (`snapshot.go:303`). -/
def Item.toChange (it : Item N) : Change N :=
  { ctype := it.ctype, parent := it.parent, key := it.key, children := it.children }

/-- `entityChanged.Remove` (`snapshot.go:48-61`): compacts the backing array in place (positions past the
kept elements keep their old content) and shortens the slice; nothing changes if absent. -/
def Item.remove (it : Item N) (e : N) : Item N :=
  let kept := it.children.filter fun x => decide (x ≠ e)
  if kept.length = it.children.length then it
  else { it with buf := kept ++ it.buf.drop kept.length, len := kept.length }

/-- loop state of `handleEntityMove`: the items, the map `entities` (entity ↦ index of the item recorded for it,
most recent assignment first), and the items appended by the loop. (`snapshot.go:270-303`.) -/
structure MoveSt (N : Type) where
  items : List (Item N)
  seen : List (N × Nat)
  extra : List (Change N)

/-- `entities[entity]`. (`snapshot.go:280`.) -/
def MoveSt.lookup (st : MoveSt N) (e : N) : Option Nat := (st.seen.find? fun x => x.1 == e).map Prod.snd

/-- body of the inner loop (`snapshot.go:279-299`) for entity `e` of item number `ii`; `none` is the error
return of line 298. -/
def moveVisit (ii : Nat) (e : N) (st : MoveSt N) : Option (MoveSt N) :=
  match st.lookup e with
  | none => some { st with seen := (e, ii) :: st.seen }
  | some pi =>
    match st.items[pi]?, st.items[ii]? with
    | some prev, some item =>
      if prev.ctype = .new ∧ item.ctype = .delete then
        some { items := (st.items.modify ii fun it => it.remove e).modify pi fun it => it.remove e
               seen := (e, ii) :: st.seen
               extra := st.extra ++ [{ ctype := .dirty, parent := prev.parent, key := prev.key,
                                       children := [e] }] }
      else none
    | _, _ => none

/-- one iteration of `for _, entity := range item.children` (`snapshot.go:278`): the slice header was
evaluated before the loop, the element is read from the *current* backing array at index `j`. -/
def moveStep (ii : Nat) (st : MoveSt N) (j : Nat) : Option (MoveSt N) :=
  match (st.items[ii]?).bind fun it => it.buf[j]? with
  | some e => moveVisit ii e st
  | none => none

/-- `for _, entity := range item.children` for item `ii` (`snapshot.go:278-300`); the number of iterations is the slice
length when the loop is entered. -/
def moveInner (st : MoveSt N) (ii : Nat) : Option (MoveSt N) :=
  match st.items[ii]? with
  | some it => (List.range it.len).foldlM (moveStep ii) st
  | none => none

/-- `sort.SliceStable` by change type (`snapshot.go:272-274`). -/
def sortChanges (cs : List (Change N)) : List (Change N) :=
  cs.insertionSort fun a b => a.ctype.rank ≤ b.ctype.rank

/-- `handleEntityMove` (`snapshot.go:270-303`); `none` = error "entity repeated". The outer
`range changedItems` covers the original items only, appended ones are not visited. -/
def handleEntityMove (cs : List (Change N)) : Option (List (Change N)) :=
  let items := (sortChanges cs).map Item.ofChange
  ((List.range items.length).foldlM moveInner { items := items, seen := [], extra := [] }).map
    fun st => st.items.map Item.toChange ++ st.extra

/-! ## recursiveDelete (`snapshot.go:305-327`) -/

/-- `recursiveDelete` (`snapshot.go:305-327`): for every deleted child, walk it and append one delete record per
(entity, key) below; `o1` is the map order of the walk, `o2` of `range children` in the callback. -/
def recursiveDelete (g : Graph N) (o1 o2 : MapOrder N) (cs : List (Change N)) : List (Change N) :=
  cs ++ (cs.filter fun c => decide (c.ctype = .delete)).flatMap fun item =>
    item.children.flatMap fun c =>
      (walk g o1 c (some item.parent)).flatMap fun v =>
        (o2.ord v.entity (g.kids v.entity)).map fun grp =>
          { ctype := .delete, parent := v.entity, key := grp.1, children := grp.2 }

end
end Ddd
