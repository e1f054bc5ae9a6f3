import Verif.Model.Stage
import Verif.Spec.Graph
import Verif.Spec.Program
/-!
# Specification vocabulary: what is remembered of an aggregate
-/
namespace Ddd.Spec
open Ddd

/-- `sn` is a faithful record of entity `n` as it is in heap `h` with children `kids`: the children are those of now and the model is what the converter
says now (none if the type is not registered). -/
def Faithful (env : Env) (h : Heap) (kids : Kids Node) (n : Node) (sn : Snap) : Prop :=
  sn.kids = kids n ∧ ∃ t par, (∃ m, env.conv t h n par .query = .ok m ∧ sn.po = some m) ∨
    (env.conv t h n par .query = .err (.sent .notRegister) ∧ sn.po = none)

/-- a step that may renew what is remembered: a save, or the end of `Build`. -/
def Renews : Prog → Prop
  | .save _ => True
  | .commit _ => True
  | .enter _ _ => True
  | _ => False

/-- user code going from one point to another without saving. -/
inductive Works (env : Env) (opts : Opts) : Prog → St → Prog → St → Prop
  | here (p : Prog) (s : St) : Works env opts p s p s
  | step {p p1 p2 : Prog} {s s1 s2 : St} : ¬ Renews p → Next env opts p s p1 s1 → Works env opts p1 s1 p2 s2 → Works env opts p s p2 s2

/-- the converter, asked for the model of an entity being loaded, fails only for unregistered types (with the plain `ErrEntityNotRegister`). -/
def LoadsModels (env : Env) : Prop := ∀ t h n par e, env.conv t h n par .query = .err e → e = .sent .notRegister

/-- the external call panicked (`mainRet` is the return of the user's code, not an external call). -/
def Panics : Call → Prop
  | .lock _ st => st = .panic
  | .unlock _ st => st = .panic
  | .begin st => st = .panic
  | .commit st => st = .panic
  | .rollback st => st = .panic
  | .mainStart => False
  | .mainRet _ => False
  | .query _ st => st = .panic
  | .conv _ _ _ st _ => st = .panic
  | .newID st => st = .panic
  | .hook _ _ st => st = .panic
  | .exec _ st => st = .panic
  | .evModel _ st => st = .panic
  | .dispatch _ st => st = .panic
  | .dispatchBegin _ st => st = .panic
  | .busCommit st => st = .panic
  | .busRollback st => st = .panic
  | .postSave _ st => st = .panic

end Ddd.Spec
