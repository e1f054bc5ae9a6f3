import Verif.Model.BusSeq
import Verif.Spec.BusLTS
/-! Vocabulary of C102: histories of operations that do not overlap. -/
namespace Ddd.Bus

/-- `c'` is `c`, except that it stops early: a run that handles only some of the records it found, since the process died in between, is one with a smaller limit. -/
def Stops (c c' : Cfg) : Prop := ∃ k ≤ c.limit, c' = { c with limit := k }

/-- The operations happen one after the other, on a clock that does not go back from `t`, and all workers are configured by `c`; runs may break off between two records. -/
def InTime (c : Cfg) : Nat → List Op → Prop
  | _, [] => True
  | t, .begin _ now _ _ _ :: ops => t ≤ now ∧ InTime c now ops
  | t, .check _ _ now _ :: ops => t ≤ now ∧ InTime c now ops
  | t, .run c' _ now _ :: ops => Stops c c' ∧ t ≤ now ∧ InTime c now ops
  | t, .clean c' _ now :: ops => c' = c ∧ t ≤ now ∧ InTime c now ops
  | t, .dispatch .. :: ops => InTime c t ops
  | t, .commit .. :: ops => InTime c t ops
  | t, .rollback .. :: ops => InTime c t ops
  | t, .register _ :: ops => InTime c t ops

/-- No process ever overlaps with another one, none dies between the return of a handler and the commit of its outcome, nobody expires records by hand. -/
def oneAtATime : Pol := ⟨true, true, true, true, 0⟩

/-- nothing is under way -/
def resting (now : Nat) (db : DB) (log : List Log) : State := ⟨now, db, [], [], [], [], [], log⟩

end Ddd.Bus
