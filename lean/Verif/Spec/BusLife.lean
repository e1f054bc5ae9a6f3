import Verif.Model.BusLife
/-!
# Vocabulary for the construction and life of a MySQL bus
-/
namespace Ddd.Spec
open Bus BusLife

/-- the delivery record after `i` failures of its handler, which happened at `times` -/
def afterFailures (st : Strategy) (times : Nat → Nat) (r : Rec) : Nat → Rec
  | 0 => r
  | i + 1 => retryStep st (times i) (afterFailures st times r i)

/-- A handler that always fails is called exactly `n` times: after each of the first `n - 1` failures the delivery is pending again, after the `n`-th it has failed for good. -/
def GivesUpAfter (st : Strategy) (n : Nat) : Prop :=
  0 < n ∧ ∀ times (r : Rec), r.retry = 0 → r.status = .init → (∀ i < n, (afterFailures st times r i).status = .init) ∧ (afterFailures st times r n).status = .failed

/-- the options in force: the defaults, then what each option function makes of them, in the order given -/
def inForce (cron : Nat) (opts : List (Options → Options)) : Options := opts.foldl (fun o f => f o) (defaults cron)

/-- no process was ever started -/
def fresh (db : DB) : BusLife.State := { now := 0, db := db, alive := false, started := false, loops := 0, crons := 0, passes := [] }

/-- the checker panics on this transaction from its due time on -/
def Poisoned (ask : Nat → DEv → Option TxAns) (tx : TxRow) : Prop := ∀ t, tx.due < t → ∀ e es, tx.events = e :: es → ask t e = none

end Ddd.Spec
