import Verif.Model.Snapshot
import Verif.Model.Children
/-!
# The recursive functions on any object graph

`Model/Snapshot.lean` models `walk`, `entityDiff` and `recursiveDelete` for graphs without cycles. Here they are modelled for every graph of objects that users can build; a call is given a stack of some depth, and `none` means that it needs a deeper one.
A call that returns for no depth recurses for ever, that is, it ends in Go's "stack overflow", which no `recover` stops.
-/
namespace Ddd.Depth

/-- any objects; `kids` is what `findChildren` returns for them (`snapshot.go:136-189`) -/
structure Objects (N : Type) where
  kids : N → List (Key × List N)

variable {N : Type} [DecidableEq N] {σ : Type}

/-- the loop `for _, c := range entities { if err := walk(...); err != nil { return err } }` (`snapshot.go:198-204`) with state `σ`; `false`: an error was returned -/
def each {α : Type} (step : α → σ → Option (σ × Bool)) : List α → σ → Option (σ × Bool)
  | [], a => some (a, true)
  | c :: cs, a =>
    match step c a with
    | none => none
    | some (a', false) => some (a', false)
    | some (a', true) => each step cs a'

/-- `walk` (`snapshot.go:192-206`) with a stack for `n` calls; the callback `f` changes the state and returns whether there was no error -/
def walkDepth (g : Objects N) (o : MapOrder N) (f : Visit N → σ → σ × Bool) : Nat → N → Option N → σ → Option (σ × Bool)
  | 0, _, _, _ => none
  | n + 1, e, par, s =>
    match f ⟨e, par⟩ s with
    | (s', false) => some (s', false)
    | (s', true) => each (fun c s => walkDepth g o f n c (some e) s) ((o.ord e (g.kids e)).flatMap Prod.snd) s'

/-- `res = append(res, entityDiff(item, pool)...)` for all items of a list (`snapshot.go:232-234,252-254`) -/
def appendAll {α : Type} (step : α → Option (List (Change N))) : List α → Option (List (Change N))
  | [] => some []
  | c :: cs =>
    match step c with
    | none => none
    | some a =>
      match appendAll step cs with
      | none => none
      | some b => some (a ++ b)

/-- one key of `entityDiff` (`snapshot.go:217-266`); `rec` is the recursive call -/
def diffKey (dirty : N → Bool) (pool : KidPool N) (rec : N → Option (List (Change N))) (parent : N) (grp : Key × List N) : Option (List (Change N)) :=
  let old := snapKids pool parent grp.1
  match appendAll rec (createdOf grp.2 old) with
  | none => none
  | some a =>
    match appendAll rec (remainOf grp.2 old) with
    | none => none
    | some b =>
      some (mkChange .new parent grp.1 (createdOf grp.2 old) ++ a ++ mkChange .dirty parent grp.1 ((remainOf grp.2 old).filter dirty) ++ b ++ mkChange .delete parent grp.1 (deletedOf grp.2 old))

/-- `entityDiff` (`snapshot.go:209-268`) with a stack for `n` calls -/
def diffDepth (g : Objects N) (dirty : N → Bool) (pool : KidPool N) : Nat → N → Option (List (Change N))
  | 0, _ => none
  | n + 1, parent => appendAll (diffKey dirty pool (diffDepth g dirty pool n) parent) ((g.kids parent).insertionSort fun a b => a.1 ≤ b.1)

/-- `recursiveDelete` (`snapshot.go:305-327`) with a stack for `n` calls: the state of the walk is what was appended -/
def deleteDepth (g : Objects N) (o1 o2 : MapOrder N) (n : Nat) (cs : List (Change N)) : Option (List (Change N)) :=
  (each (fun (p : N × N) (s : List (Change N)) => walkDepth g o1 (fun v s => (s ++ (o2.ord v.entity (g.kids v.entity)).map fun grp => ⟨.delete, v.entity, grp.1, grp.2⟩, true)) n p.1 (some p.2) s)
    ((cs.filter fun c => decide (c.ctype = .delete)).flatMap fun item => item.children.map fun c => (c, item.parent)) cs).map Prod.fst

/-- `Stage.getEntityChanged` (`engine.go:882-894`) with a stack for `n` calls; inner `none`: the error "entity repeated" -/
def changesDepth (g : Objects N) (o1 o2 : MapOrder N) (dirty : N → Bool) (pool : KidPool N) (recursive : Bool) (n : Nat) (root : N) : Option (Option (List (Change N))) :=
  match diffDepth g dirty pool n root with
  | none => none
  | some cs =>
    match handleEntityMove cs with
    | none => some none
    | some cs' => if recursive then (deleteDepth g o1 o2 n cs').map some else some (some cs')

end Ddd.Depth
