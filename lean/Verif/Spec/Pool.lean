import Verif.Model.Pool
/-!
# Vocabulary for the worker pool: what can be seen of a pass
-/
namespace Ddd.Spec
open Pool

/-- the tuples whose handling began, in order -/
def begunOf (log : List Pool.Log) : List Nat := log.filterMap fun | .begun i => some i | .ended _ => none
/-- the tuples whose handling is over, in order -/
def endedOf (log : List Pool.Log) : List Nat := log.filterMap fun | .ended i => some i | .begun _ => none

/-- tuples handled strictly one after the other, in order -/
def oneByOne (is : List Nat) : List Pool.Log := is.flatMap fun i => [.begun i, .ended i]

/-- handling all tuples one after the other -/
def sequential {σ L : Type} (w : Work σ L) (is : List Nat) (d : σ) : σ := is.foldl (fun d i => w.leave i (w.enter i d) d) d

/-- A pass that has come to state `s`, whatever the schedule. -/
def Pass {σ L : Type} (w : Work σ L) (n : Nat) (k : Int) (d : σ) (s : Pool.State σ L) : Prop := ∃ m, Exec w n (State.init k d) m s

end Ddd.Spec
