import Verif.Model.Stage
/-!
# Specification vocabulary: what one save does

A *job* is one (entity, parent, operation) of a save; an *entry* is one row to be written.
-/
namespace Ddd.Spec
open Ddd

/-- one entity to be written, below `parent`. -/
structure Job where
  node : Node
  parent : Node
  op : Op
  deriving DecidableEq, Repr

/-- the jobs of a list of changes, in order. -/
def jobs (cs : List (Change Node)) : List Job :=
  cs.flatMap fun c => c.children.map fun n => ⟨n, c.parent, c.ctype.op⟩

/-- the converter answered job `j` with model `r` (`none`: the entity type is not registered). -/
def Answered (env : Env) (h : Heap) (j : Job) (r : Option Model) : Prop :=
  ∃ t, match r with
    | some m => env.conv t h j.node (some j.parent) j.op = .ok m
    | none => ∃ e, env.conv t h j.node (some j.parent) j.op = .err e ∧ e.is .notRegister = true

/-- the call of the converter for job `j` as it appears in the trace. -/
def convCall (j : Job) (r : Option Model) : Call :=
  .conv j.node (some j.parent) j.op (if r.isSome then .ok else .err) r.isNone

/-- one row to be written. -/
structure Entry where
  op : Op
  model : Model
  prev : List (Option Model)
  deriving DecidableEq, Repr

/-- the row of a job, with the snapshot model for updates. -/
def entryOf (snap : Node → Option Snap) (j : Job) (r : Option Model) : Option Entry :=
  r.map fun m => ⟨j.op, m, if j.op = .update then [(snap j.node).bind Snap.po] else []⟩

/-- the rows of a save. -/
def entries (snap : Node → Option Snap) (js : List Job) (rs : List (Option Model)) : List Entry :=
  (js.zip rs).filterMap fun x => entryOf snap x.1 x.2

/-- first occurrences, in order. -/
def firsts : List Nat → List Nat
  | [] => []
  | a :: l => a :: (firsts l).filter fun x => decide (x ≠ a)

/-- the batch of all rows with operation `op` and model type `t`, in order. -/
def batch (es : List Entry) (op : Op) (t : Nat) : Action :=
  { op := op
    models := (es.filter fun e => decide (e.op = op ∧ e.model.typ = t)).map Entry.model
    prev := (es.filter fun e => decide (e.op = op ∧ e.model.typ = t)).flatMap Entry.prev }

/-- the batches of a save: inserts, updates, deletes, per type in order of first appearance. -/
def batches (es : List Entry) : List Action :=
  [Op.insert, Op.update, Op.delete].flatMap fun op =>
    ((firsts (es.map fun e => e.model.typ)).filter fun t => es.any fun e => decide (e.op = op ∧ e.model.typ = t)).map
      (batch es op)

/-- the hook calls of a save: for every changed entity, in order, the hook its type implements. -/
def hookCalls (env : Env) (before : Bool) (cs : List (Change Node)) : List Call :=
  cs.flatMap fun c => c.children.filterMap fun n =>
    match n with
    | none => none
    | some p => if c.ctype ≠ .clear ∧ env.hasHook p ⟨c.ctype, before⟩ = true
        then some (.hook (some p) ⟨c.ctype, before⟩ .ok) else none

/-- the entities to be inserted. -/
def newNodes (cs : List (Change Node)) : List Node :=
  (cs.filter fun c => decide (c.ctype = .new)).flatMap Change.children

end Ddd.Spec

namespace Ddd.Spec
open Ddd

/-- the entities a save asked to be written (the conversions it requested), in order. -/
def asked (t : Trace) : List Job :=
  t.filterMap fun
    | .conv n (some p) .insert _ _ => some ⟨n, p, .insert⟩
    | .conv n (some p) .update _ _ => some ⟨n, p, .update⟩
    | .conv n (some p) .delete _ _ => some ⟨n, p, .delete⟩
    | _ => none

/-- the writes handed to the executor, in order. -/
def written (t : Trace) : List Action :=
  t.filterMap fun
    | .exec a _ => some a
    | _ => none

end Ddd.Spec
