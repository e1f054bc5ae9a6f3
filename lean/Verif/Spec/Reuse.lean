import Verif.Spec.Program
import Verif.Spec.Events
/-! # Vocabulary for C85: what a command does to the user's objects -/
namespace Ddd.Spec
open Ddd

/-- All the framework itself may change on the user's objects: an empty ID is filled, a dirty flag is cleared. Children, fields, type and events stay. -/
structure OnlyIDs (h h' : Heap) : Prop where
  kids : h'.kids = h.kids
  typ : ∀ p, (h'.attr p).typ = (h.attr p).typ
  data : ∀ p, (h'.attr p).data = (h.attr p).data
  events : ∀ p, (h'.attr p).events = (h.attr p).events
  id : ∀ p, (h.attr p).id ≠ 0 → (h'.attr p).id = (h.attr p).id
  dirty : ∀ p, (h'.attr p).dirty = true → (h.attr p).dirty = true

/-- every change the user's code makes to its objects on its own is in `G`. -/
def _root_.Ddd.Prog.Within (G : Heap → Heap → Prop) : Prog → Prop
  | .ret _ => True
  | .panic => True
  | .mutate f k => (∀ h, G h (f h)) ∧ k.Within G
  | .look k => ∀ h, (k h).Within G
  | .get _ k => ∀ e, (k e).Within G
  | .customGet g _ k => (∀ h, G h (g h)) ∧ ∀ e, (k e).Within G
  | .add _ k => k.Within G
  | .remove _ k => k.Within G
  | .save k => ∀ e, (k e).Within G
  | .commit k => ∀ e, (k e).Within G
  | .output _ k => k.Within G
  | .build _ k => ∀ e, (k e).Within G
  | .enter _ k => k.Within G
  | .cAdd _ k => k.Within G
  | .cRemove _ k => k.Within G

/-- … and so are those of entity hooks and of loading. -/
structure _root_.Ddd.Env.Within (env : Env) (G : Heap → Heap → Prop) : Prop where
  hook : ∀ t h n k, G h (env.hook t h n k).1
  query : ∀ t h p, G h (env.query t h p).1

/-- no event is taken off an entity. -/
def KeepsEvents (h h' : Heap) : Prop := ∀ p, ∀ e ∈ (h.attr p).events, e ∈ (h'.attr p).events

/-- entity `x` belongs to the aggregate of the stage, or was removed from it. -/
def Held (s : St) (x : Node) : Prop := Reach s.graph.kids none x ∨ ∃ d ∈ s.deleted, Reach s.graph.kids d x

end Ddd.Spec
