import Verif.Model.Stage
/-!
# Specification vocabulary: observing a command

A command is observed through the list of its external calls (`Trace`) and its result.
-/
namespace Ddd

/-- the call did what it was asked to do; converting an unregistered entity is tolerated. -/
def Call.Good : Call → Prop
  | .lock _ st => st = .ok
  | .unlock _ st => st = .ok
  | .begin st => st = .ok
  | .commit st => st = .ok
  | .rollback st => st = .ok
  | .mainStart => True
  | .mainRet st => st = .ok
  | .query _ st => st = .ok
  | .conv _ _ _ st u => st = .ok ∨ (st = .err ∧ u = true)
  | .newID st => st = .ok
  | .hook _ _ st => st = .ok
  | .exec _ st => st = .ok
  | .evModel _ st => st = .ok
  | .dispatch _ st => st = .ok
  | .dispatchBegin _ st => st = .ok
  | .busCommit st => st = .ok
  | .busRollback st => st = .ok
  | .postSave _ st => st = .ok

/-- calls made while saving. -/
def Call.IsSave (dry : Bool) : Call → Prop
  | .conv .. => True | .newID _ => True | .hook .. => True | .exec .. => dry = false | _ => False
/-- calls made by user code through the framework. -/
def Call.IsMain (dry : Bool) : Call → Prop
  | .query .. => True | c => c.IsSave dry

/-- calls made while persisting events. -/
def Call.IsEvPersist (dry : Bool) : Call → Prop
  | .evModel .. => True | .exec .. => dry = false | _ => False
/-- calls handing events to the bus. -/
def Call.IsSend (dry : Bool) : Call → Prop
  | .dispatch .. => dry = false | .dispatchBegin .. => dry = false | _ => False
/-- calls made by a command between `Begin` and `Commit`/`RollBack`. -/
def Call.IsBody (dry : Bool) : Call → Prop
  | .mainStart => True | .mainRet _ => True
  | .query .. => True | .conv .. => True | .newID _ => True | .hook .. => True | .exec .. => dry = false
  | .evModel .. => True | .dispatch .. => dry = false | .dispatchBegin .. => dry = false
  | _ => False

/-- options seen by the command: its own PostSave hook is registered last (`engine.go:823-826`). -/
def Cmd.opts (c : Cmd) (opts : Opts) : Opts := { opts with hooks := opts.hooks ++ c.post.toList }

/-- the lock keys asked for by the command. -/
def Cmd.Keys (c : Cmd) (keys : List Nat) : Prop := c.init = none ∧ keys = [] ∨ c.init = some (.ok keys)

/-- `Init` failed, broke or panicked. -/
def Cmd.InitFails (c : Cmd) : Prop := (∃ e, c.init = some (.err e)) ∨ c.init = some .panic

end Ddd

namespace Ddd.Spec
open Ddd

/-- a call ending a transaction. -/
def isEnd : Call → Bool
  | .commit _ => true
  | .rollback _ => true
  | _ => false

/-- the calls ending a transaction, in order. -/
def ends (t : Trace) : List Call := t.filter isEnd

/-- a call ending a transaction (of the executor or of the bus) that panics. -/
def EndPanics : Call → Prop
  | .commit .panic => True
  | .rollback .panic => True
  | .busCommit .panic => True
  | .busRollback .panic => True
  | _ => False

/-- The state in which the user's `Main` is called by a command with lock keys `keys`: all keys are locked in
ascending order and, if enabled, a transaction is begun; nothing else has happened. -/
def atMain (opts : Opts) (keys : List Nat) (s : St) : St :=
  { s with trace := s.trace ++ (((keys.insertionSort (· ≤ ·)).map fun k => Call.lock k .ok) ++
      if opts.withTransaction then [.begin .ok] else []) }

/-! ## A transactional database seen from the calls -/

/-- durable content, and the content of the open transaction (if any). -/
structure Db (D : Type) where
  durable : D
  openTx : Option D

/-- Effect of one call on a transactional database. Successful writes are applied; a failing write may leave any
content in the transaction; a failing commit may or may not have become durable; rolling back, successful or not, discards. -/
def DbStep {D : Type} (apply : Action → D → D) (d : Db D) : Call → Db D → Prop
  | .begin .ok, d' => d' = ⟨d.durable, some d.durable⟩
  | .exec a st, d' =>
    match d.openTx with
    | some w => if st = .ok then d' = ⟨d.durable, some (apply a w)⟩ else ∃ w', d' = ⟨d.durable, some w'⟩
    | none => if st = .ok then d' = ⟨apply a d.durable, none⟩ else ∃ w', d' = ⟨w', none⟩
  | .commit st, d' =>
    match d.openTx with
    | some w => d' = ⟨w, none⟩ ∨ st ≠ .ok ∧ d' = ⟨d.durable, none⟩
    | none => d' = d
  | .rollback _, d' => d' = ⟨d.durable, none⟩
  | _, d' => d' = d

/-- running the calls of a trace against the database. -/
inductive DbRun {D : Type} (apply : Action → D → D) : Db D → Trace → Db D → Prop
  | nil (d : Db D) : DbRun apply d [] d
  | cons {d d1 d2 : Db D} {c : Call} {t : Trace} : DbStep apply d c d1 → DbRun apply d1 t d2 → DbRun apply d (c :: t) d2

/-- `w` is the result of applying all writes of the trace to `w0` (a failed write may do anything). -/
inductive Writes {D : Type} (apply : Action → D → D) : D → Trace → D → Prop
  | nil (w : D) : Writes apply w [] w
  | ok {w w' : D} {a : Action} {t : Trace} : Writes apply (apply a w) t w' → Writes apply w (.exec a .ok :: t) w'
  | bad {w w1 w' : D} {a : Action} {st : Stat} {t : Trace} : st ≠ .ok → Writes apply w1 t w' → Writes apply w (.exec a st :: t) w'
  | other {w w' : D} {c : Call} {t : Trace} : (∀ a st, c ≠ .exec a st) → Writes apply w t w' → Writes apply w (c :: t) w'

end Ddd.Spec
