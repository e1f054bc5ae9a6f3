import Verif.Spec.Serial
import Verif.Spec.Tx
/-!
# Specification vocabulary: many commands on the MySQL executor
-/
namespace Ddd.Spec
open Ddd

/-- The circumstances: the executor of each command, the context each command is started with, the statements a write consists of (`opMap`, `executor/mysql/executor.go:75-136`),
how many of them are performed by a write that fails, and whether a commit that fails becomes durable nevertheless (both may depend on everything the command did before). -/
structure Setting (W : Type) where
  exe : Nat → Tx.Exe
  base : Nat → Tx.Ctx
  stmts : Action → List W
  part : Nat → Trace → Nat
  lands : Nat → Trace → Bool

variable {W : Type} (c : Setting W)

/-- What happens when command `i`, having done `past`, makes call `x`: `Begin` with the context the command was started with, everything else with the context `Begin` returned
(`engine.go:1246-1271`). Calls to other parties do not concern the executor; reads change nothing. -/
def act (i : Nat) (past : Trace) (s : Tx.Sys W × (Nat → Tx.Ctx)) : Call → Tx.Sys W × (Nat → Tx.Ctx)
  | .begin st =>
    let r := Tx.step s.1 (.begin (c.exe i) (c.base i) (st ≠ .ok))
    (r.1, match r.2 with
      | .ctx x => fun j => if j = i then x else s.2 j
      | _ => s.2)
  | .exec a st => ((Tx.step s.1 (.exec (c.exe i) (s.2 i) (c.stmts a) (if st = .ok then (c.stmts a).length else c.part i past))).1, s.2)
  | .commit st => ((Tx.step s.1 (.commit (c.exe i) (s.2 i) (if st = .ok then none else some (c.lands i past)))).1, s.2)
  | .rollback st => ((Tx.step s.1 (.rollback (c.exe i) (s.2 i) (st ≠ .ok))).1, s.2)
  | _ => s

/-- the databases after all commands have done `g`. -/
def play : World → World → Tx.Sys W × (Nat → Tx.Ctx) → Tx.Sys W × (Nat → Tx.Ctx)
  | _, [], s => s
  | past, (i, x) :: g, s => play (past ++ [(i, x)]) g (act c i (past.of i) s x)

/-- the statements performed by one call of command `i`, having done `past`. -/
def wroteBy (i : Nat) (past : Trace) : Call → List W
  | .exec a st => (c.stmts a).take (if st = .ok then (c.stmts a).length else c.part i past)
  | _ => []

/-- the statements performed by command `i` in `t`, in order. -/
def wrote (i : Nat) : Trace → Trace → List W
  | _, [] => []
  | past, x :: t => wroteBy c i past x ++ wrote i (past ++ [x]) t

/-- what a call has to add to database `d`: a commit on `d` that succeeds (or fails but becomes durable) adds everything the committing command has performed. -/
def publishedBy (d : Nat) (past : World) (i : Nat) : Call → List W
  | .commit st => if (c.exe i).db = some d ∧ (st = .ok ∨ c.lands i (past.of i) = true) then wrote c i [] (past.of i) else []
  | _ => []

/-- what has to be in database `d` after `g`: for each commit, in the order of the commits, everything the committing command has written. -/
def published (d : Nat) : World → World → List W
  | _, [] => []
  | past, (i, x) :: g => publishedBy c d past i x ++ published d (past ++ [(i, x)]) g

end Ddd.Spec
