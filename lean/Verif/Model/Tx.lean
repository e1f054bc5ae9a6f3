import Mathlib.Data.List.Basic
/-!
# Transactions of the MySQL executor

Models `NewExecutor`, `Begin`, `Commit`, `RollBack`, `Exec` of `/repo/executor/mysql/executor.go:143-233` for any number of executors, databases, contexts and
transactions. What a statement does to the rows is left open (a statement is an opaque value of type `W`; the content of a database is the list of statements that became
durable, in order). gorm: statements issued through a `*gorm.DB` that is a transaction belong to it; through any other they take effect at once; a transaction that was ended
refuses everything (`sql.ErrTxDone`).
-/
namespace Ddd.Tx

/-- `Executor` (`executor.go:143-146`): `db` is the database, `none` for a nil `*gorm.DB`; `key` is the context key under which transactions are kept, the string
`executor_tx_<second of creation>` represented by the second (`executor.go:148-153`). -/
structure Exe where
  db : Option Nat
  key : Nat
  deriving DecidableEq, Repr

/-- `NewExecutor` (`executor.go:148-153`) at second `now`. -/
def newExecutor (db : Option Nat) (now : Nat) : Exe := ⟨db, now⟩

/-- A `context.Context` as the transactions stored in it (`context.WithValue`, `executor.go:167`), innermost first: context key and transaction number. Other values and
cancellation do not matter here. -/
abbrev Ctx := List (Nat × Nat)

/-- `ctx.Value(key)`: the innermost value. (`ctx.Value(e.txKey)` in `executor/mysql/executor.go:155-233`.) -/
def Ctx.value (c : Ctx) (key : Nat) : Option Nat := c.lookup key

/-- Where a transaction of `executor/mysql/executor.go:155-194` is. -/
inductive Status where
  | opened
  | committed
  | rolledBack
  deriving DecidableEq, Repr

/-- A transaction (`*gorm.DB` returned by `Begin`): its database, the statements performed in it so far, whether it was ended. (`executor/mysql/executor.go:155-168`.) -/
structure Rec (W : Type) where
  db : Nat
  writes : List W
  status : Status
  deriving DecidableEq, Repr

/-- All databases and all transactions ever begun (the number of a transaction is its position). (The databases behind `executor/mysql/executor.go:148-233`.) -/
structure Sys (W : Type) where
  log : Nat → List W
  txs : List (Rec W)

/-- Calls to executors. The fields say what the database does:
* `begin`: `fail` — the database refuses to begin;
* `exec`: `done` — how many of the statements are performed before one fails (all, if `done ≥ ws.length`);
* `query`: `seen` — how much of the durable content is visible (at least nothing: any isolation level);
* `commit`: `none` succeeds, `some b` returns an error although (`b = true`) the commit became durable, or not;
* `rollback`: `fail` — an error is returned (the transaction is over in any case). (`executor/mysql/executor.go:155-233`.) -/
inductive Op (W : Type) where
  | begin (e : Exe) (ctx : Ctx) (fail : Bool)
  | exec (e : Exe) (ctx : Ctx) (ws : List W) (done : Nat)
  | query (e : Exe) (ctx : Ctx) (seen : Nat)
  | commit (e : Exe) (ctx : Ctx) (fail : Option Bool)
  | rollback (e : Exe) (ctx : Ctx) (fail : Bool)
  deriving DecidableEq, Repr

/-- What a call returns. (`executor/mysql/executor.go:155-233`.) -/
inductive Out (W : Type) where
  | ok
  | ctx (c : Ctx)
  | rows (ws : List W)
  | invalidDB
  | noTransaction
  | dbErr
  | panic
  deriving DecidableEq, Repr

variable {W : Type}

/-- Auxiliary: the transaction `t` (`executor/mysql/executor.go:155-168`) becomes `r`. -/
def Sys.setTx (s : Sys W) (t : Nat) (r : Rec W) : Sys W := { s with txs := s.txs.set t r }
/-- Auxiliary: statements of `executor/mysql/executor.go:220-233` become durable. -/
def Sys.append (s : Sys W) (d : Nat) (ws : List W) : Sys W := { s with log := fun x => if x = d then s.log d ++ ws else s.log x }

/-- `tx.Commit().Error`, `tx.Rollback().Error` on transaction `t`: refused unless it is open. (`executor/mysql/executor.go:170-194`.) -/
def endTx (s : Sys W) (t : Nat) (durable : Bool) (st : Status) (out : Out W) : Sys W × Out W :=
  match s.txs[t]? with
  | some r =>
    if r.status = .opened then
      ((if durable then s.append r.db r.writes else s).setTx t { r with status := st }, out)
    else (s, .dbErr)
  | none => (s, .dbErr)

/-- One call. `Begin` (`executor.go:155-168`), `Commit` (`170-181`), `RollBack` (`183-194`), `Exec` (`220-233`; a nil `*gorm.DB` outside a transaction is dereferenced: panic). -/
def step (s : Sys W) : Op W → Sys W × Out W
  | .begin e ctx fail =>
    match e.db with
    | none => (s, .invalidDB)
    | some d => if fail then (s, .dbErr) else ({ s with txs := s.txs ++ [⟨d, [], .opened⟩] }, .ctx ((e.key, s.txs.length) :: ctx))
  | .exec e ctx ws done =>
    match ctx.value e.key with
    | some t =>
      match s.txs[t]? with
      | some r =>
        if r.status = .opened then (s.setTx t { r with writes := r.writes ++ ws.take done }, if done < ws.length then .dbErr else .ok)
        else (s, .dbErr)
      | none => (s, .dbErr)
    | none =>
      match e.db with
      | none => (s, .panic)
      | some d => (s.append d (ws.take done), if done < ws.length then .dbErr else .ok)
  | .query e ctx seen =>
    match ctx.value e.key with
    | some t =>
      match s.txs[t]? with
      | some r => if r.status = .opened then (s, .rows ((s.log r.db).take seen ++ r.writes)) else (s, .dbErr)
      | none => (s, .dbErr)
    | none =>
      match e.db with
      | none => (s, .panic)
      | some d => (s, .rows ((s.log d).take seen))
  | .commit e ctx fail =>
    match e.db, ctx.value e.key with
    | none, _ => (s, .invalidDB)
    | some _, none => (s, .noTransaction)
    | some _, some t =>
      match fail with
      | none => endTx s t true .committed .ok
      | some b => endTx s t b .committed .dbErr
  | .rollback e ctx fail =>
    match e.db, ctx.value e.key with
    | none, _ => (s, .invalidDB)
    | some _, none => (s, .noTransaction)
    | some _, some t => endTx s t false .rolledBack (if fail then .dbErr else .ok)

/-- A history of calls, by whomever, with what they returned. (Auxiliary of the model, histories of calls of `executor/mysql/executor.go`.) -/
def runs (s : Sys W) : List (Op W) → Sys W × List (Op W × Out W)
  | [] => (s, [])
  | o :: os => ((runs (step s o).1 os).1, (o, (step s o).2) :: (runs (step s o).1 os).2)

/-- nothing written, no transaction begun. (Auxiliary of the model, before any call of `executor/mysql/executor.go`.) -/
def init : Sys W := ⟨fun _ => [], []⟩

end Ddd.Tx
