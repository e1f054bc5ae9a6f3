import Verif.Model.Cron
import Verif.Spec.Timer
/-!
# Specification vocabulary: cron tasks
-/
namespace Ddd.Cron
open Router (Reg)

/-- The handler a task is registered as. -/
def handlerOf (w : Consumer.World) (cd : Coding) : Task → Router.Handler
  | .func i => ⟨funcFn cd i, cd.timerEvent⟩
  | .command i => ⟨Consumer.closureFn w i, w.domainEvent⟩

/-- when the DB timer of service `svc` accepts a cron job: the expression is valid (or empty), and the key is the service's already or nobody's -/
def Accepts (c : Timer.Cfg) (db : Timer.DB) (svc key cron : Nat) : Prop :=
  (cron = 0 ∨ ∃ f, c.parse cron = some f) ∧ ((∃ j ∈ db.jobs, j.service = svc ∧ j.key = key) ∨ ∀ j ∈ db.jobs, j.key ≠ key)

/-- what a task is called with for a job: the decoded `TimerEvent` (key, expression and data of the job), or, for a command task, the event carrying it -/
def argOf (cd : Coding) : Task → Timer.Job → Router.Arg
  | .func _, j => .decoded cd.timerEvent (cd.enc j.key j.cron j.data)
  | .command _, j => .raw ⟨j.key, cd.enc j.key j.cron j.data⟩

/-- a job the timer of `svc` has to call at time `now` -/
def IsDue (svc now : Nat) (j : Timer.Job) : Prop := j.service = svc ∧ j.next ≤ now ∧ j.status = .toRun

instance (svc now : Nat) (j : Timer.Job) : Decidable (IsDue svc now j) := by unfold IsDue; infer_instance

/-- `TimerEvent`s can be decoded, and `TimerEvent` is not `DomainEvent` -/
def Decodes (w : Consumer.World) (cd : Coding) : Prop := cd.timerEvent ≠ w.domainEvent ∧ ∀ k e d, w.decodeErr cd.timerEvent (cd.enc k e d) = none

/-- the task is the only handler of its key, and no handler of another key is this closure -/
def Only (w : Consumer.World) (cd : Coding) (r : Reg) (key : Nat) (task : Task) : Prop :=
  r.handlers key = [handlerOf w cd task] ∧ ∀ k, k ≠ key → ∀ h ∈ r.handlers k, h.fn.ident ≠ task.ident

/-- the table and the calls of further polls, each with the registrations of its moment -/
def polls (w : Consumer.World) (cd : Coding) (c : Timer.Cfg) (svc : Nat) : Sys → List Consumer.Done → List (Reg × Nat) → Sys × List Consumer.Done
  | s, hist, [] => (s, hist)
  | s, hist, (r, now) :: l => polls w cd c svc (poll w cd c svc now { s with reg := r } hist).1 (poll w cd c svc now { s with reg := r } hist).2 l

end Ddd.Cron
