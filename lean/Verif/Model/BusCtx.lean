import Verif.Model.Bus
/-!
# Contexts of the MySQL event bus

Models which transaction a call of the bus finds in its context (`/repo/eventbus/mysql/eventbus.go:208-253,255-349`), for any number of buses and databases. The handle kept by `ctxWithDB` (`228-240`) never leaves the bus (it is
used during a check-back, `650-666`, only), so the contexts users have carry transactions only.
-/
namespace Ddd.BusCtx
open Bus

/-- `EventBus` (`eventbus/mysql/eventbus.go:154-168,208-216`): its database, its service, and `txKey`, the string `eventbus_tx_<second of creation>` represented by the second. -/
structure EB where
  db : Nat
  svc : Nat
  key : Nat
  deriving DecidableEq, Repr

/-- A `context.Context` as the transactions in it (`ctxWithTX`, `eventbus/mysql/eventbus.go:242-244`), innermost first. -/
abbrev Ctx := List (Nat × TxRow)

/-- `getTX` (`eventbus/mysql/eventbus.go:246-253`) -/
def EB.getTX (b : EB) (ctx : Ctx) : Option TxRow := ctx.lookup b.key

/-- calls of a bus (`eventbus/mysql/eventbus.go:256,306,322,343`); `n`, `ok`: which statements succeed -/
inductive Op where
  | dispatch (b : EB) (ctx : Ctx) (es : List DEv) (n : Nat)
  | begin (b : EB) (ctx : Ctx) (now timeout : Nat) (es : List DEv) (ok : Bool)
  | commit (b : EB) (ctx : Ctx) (n : Nat)
  | rollback (b : EB) (ctx : Ctx) (ok : Bool)
  deriving DecidableEq, Repr

/-- The bus called (`eventbus/mysql/eventbus.go:154-168`). -/
def Op.bus : Op → EB
  | .dispatch b _ _ _ => b
  | .begin b _ _ _ _ _ => b
  | .commit b _ _ => b
  | .rollback b _ _ => b

/-- What a call returns (`eventbus/mysql/eventbus.go:256-349`): nil, a context, `ErrNoTransaction`, another error. -/
inductive Out where
  | ok
  | ctx (c : Ctx)
  | noTransaction
  | err
  deriving DecidableEq, Repr

/-- One call on the tables of the bus (`eventbus/mysql/eventbus.go:256-349`); the parts are those of `Model/Bus.lean`. -/
def Op.on (db : DB) : Op → DB × Out
  | .dispatch b ctx es n =>
    let r := Bus.dispatch db (((b.getTX ctx).map TxRow.id).getD 0) es n
    (r.1, if r.2 then .ok else .err)
  | .begin b ctx now timeout es ok =>
    match dispatchBegin db b.svc now timeout es ok with
    | (d, some tx) => (d, .ctx ((b.key, tx) :: ctx))
    | (d, none) => (d, .err)
  | .commit b ctx n =>
    match b.getTX ctx with
    | none => (db, .noTransaction)
    | some tx => ((Bus.commit db tx n).1, if (Bus.commit db tx n).2 then .ok else .err)
  | .rollback b ctx ok =>
    match b.getTX ctx with
    | none => (db, .noTransaction)
    | some tx => ((Bus.rollback db tx ok).1, if (Bus.rollback db tx ok).2 then .ok else .err)

/-- One call among any number of databases (`eventbus/mysql/eventbus.go:256-349`). -/
def Op.run (w : Nat → DB) (op : Op) : (Nat → DB) × Out :=
  ((fun d => if d = op.bus.db then (op.on (w d)).1 else w d), (op.on (w op.bus.db)).2)

end Ddd.BusCtx
