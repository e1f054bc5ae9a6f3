import Verif.Model.BusCtx
/-! Vocabulary of C100: contexts without what other buses put into them. -/
namespace Ddd.Spec
open Ddd.Bus Ddd.BusCtx

/-- the context without the transactions of buses created in another second -/
def ownPart (b : EB) (ctx : Ctx) : Ctx := ctx.filter fun x => x.1 == b.key

/-- the same call with another context -/
def withCtx (c : Ctx) : BusCtx.Op → BusCtx.Op
  | .dispatch b _ es n => .dispatch b c es n
  | .begin b _ now t es ok => .begin b c now t es ok
  | .commit b _ n => .commit b c n
  | .rollback b _ ok => .rollback b c ok

/-- the context of a call -/
def ctxOf : BusCtx.Op → Ctx
  | .dispatch _ c _ _ => c
  | .begin _ c _ _ _ _ => c
  | .commit _ c _ => c
  | .rollback _ c _ => c

end Ddd.Spec
