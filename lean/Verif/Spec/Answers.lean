import Verif.Model.Stage
/-!
# Vocabulary of C105: the calls of a command and the answers of its environment
-/
namespace Ddd.Spec

/-- The outcome a record `c` of a call shows is what the environment answers to this very call after the history `pre`. (What hooks, queries and conversions answer may depend on the user's objects as well, which are not part of the record.) -/
def Genuine (env : Env) (pre : Trace) : Call → Prop
  | .lock k st => st = (env.lock pre k).stat
  | .unlock k st => st = (env.unlock pre k).stat
  | .begin st => st = (env.begin_ pre).stat
  | .commit st => st = (env.commit pre).stat
  | .rollback st => st = (env.rollback pre).stat
  | .mainStart => True
  | .mainRet _ => True
  | .query r st => ∃ h, st = (env.query pre h r).2.stat
  | .conv n p op st _ => ∃ h, st = (env.conv pre h n p op).stat
  | .newID st => st = (env.newID pre).stat
  | .hook n k st => (∃ p, n = some p ∧ env.hasHook p k = true) ∧ ∃ h, st = (env.hook pre h n k).2.stat
  | .exec a st => st = (env.exec pre a).stat
  | .evModel e st => st = (env.evModel pre e).stat
  | .dispatch es st => st = (env.dispatch pre es).stat
  | .dispatchBegin es st => st = (env.dispatchBegin pre es).2.stat
  | .busCommit st => st = (env.busCommit pre).stat
  | .busRollback st => st = (env.busRollback pre).stat
  | .postSave i st => st = (env.postSave pre i).stat

/-- Two environments answer the call recorded as `c` equally after the history `pre` (whatever the user's objects are). -/
def SameAnswer (a b : Env) (pre : Trace) : Call → Prop
  | .lock k _ => a.lock pre k = b.lock pre k
  | .unlock k _ => a.unlock pre k = b.unlock pre k
  | .begin _ => a.begin_ pre = b.begin_ pre
  | .commit _ => a.commit pre = b.commit pre
  | .rollback _ => a.rollback pre = b.rollback pre
  | .mainStart => True
  | .mainRet _ => True
  | .query r _ => ∀ h, a.query pre h r = b.query pre h r
  | .conv n p op _ _ => ∀ h, a.conv pre h n p op = b.conv pre h n p op
  | .newID _ => a.newID pre = b.newID pre
  | .hook n k _ => ∀ h, a.hook pre h n k = b.hook pre h n k
  | .exec x _ => a.exec pre x = b.exec pre x
  | .evModel e _ => a.evModel pre e = b.evModel pre e
  | .dispatch es _ => a.dispatch pre es = b.dispatch pre es
  | .dispatchBegin es _ => a.dispatchBegin pre es = b.dispatchBegin pre es
  | .busCommit _ => a.busCommit pre = b.busCommit pre
  | .busRollback _ => a.busRollback pre = b.busRollback pre
  | .postSave i _ => a.postSave pre i = b.postSave pre i

/-- `P` holds of every call of the trace `t` together with what preceded it; `t` itself is preceded by `tr`. -/
def Along (P : Trace → Call → Prop) (tr t : Trace) : Prop := ∀ pre c post, t = pre ++ c :: post → P (tr ++ pre) c

end Ddd.Spec
