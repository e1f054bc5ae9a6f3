import Verif.Spec.Delivery
import Verif.Spec.Once
import Verif.Model.BusSeq
/-!
# Vocabulary for the way from a command to the commands that handle its events (C123)
-/
namespace Ddd.Chain
open Spec Bus

/-- The steps of a story are those of a history of operations on the bus: every step is the next operation, or leaves the tables alone. -/
inductive Behind (db0 : DB) : List (DB × DB) → List Bus.Op → DB → Prop
  | start : Behind db0 [] [] db0
  | op {H ops d} (o : Bus.Op) : Behind db0 H ops d → Behind db0 (H ++ [(d, o.apply d)]) (ops ++ [o]) (o.apply d)
  | idle {H ops d} : Behind db0 H ops d → Behind db0 (H ++ [(d, d)]) ops d

/-- a handler of some service was called with the row `e`, or returned from such a call -/
def Reached (log : List Log) (e : EvRow) : Prop := ∃ v i t, .called v i e t ∈ log ∨ ∃ ret b, .returned v i e ret t b ∈ log

/-- no handler run broke off with `ErrBreak`: each one that reported success has committed -/
def NoBreak (ds : List Consumer.Done) : Prop := ∀ d ∈ ds, d.ret = .nil → d.committed = true

end Ddd.Chain
