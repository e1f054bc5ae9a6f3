import Verif.Model.Timer
/-!
# Vocabulary for the properties of the DB timer
-/
namespace Ddd.Timer

/-- `f` goes to the first time of the schedule `S` after a given time. -/
def Schedules (f : Nat → Nat) (S : Nat → Prop) : Prop := ∀ t, S (f t) ∧ t < f t ∧ ∀ u, S u → t < u → f t ≤ u

/-- Every accepted cron expression has a time after any time, also as the database stores it. Cron times are whole seconds, so storing them does not change them. (An expression such as 30 February is accepted by `cron.Parse` and has none: see
`unsatisfiable_fires_always`.) -/
def Satisfiable (c : Cfg) : Prop := ∀ e f, c.parse e = some f → ∀ t, t < c.round (f t)

/-- a call of the job ended -/
def Log.isEnd (id : Nat) : Log → Bool
  | .returned _ j _ _ => j.id == id
  | .died _ j _ => j.id == id
  | _ => false

/-- a call of the job ended and the job was saved -/
def Log.isSaved (id : Nat) : Log → Bool
  | .returned _ j _ true => j.id == id
  | _ => false

/-- the job was removed -/
def Log.isDeleted (id : Nat) : Log → Bool
  | .deleted j => j.id == id
  | _ => false

/-- A job is pending in the table. -/
def Pending (s : State) (id : Nat) : Prop := ∃ j ∈ s.db.jobs, j.id = id ∧ j.status = .toRun

/-- the job is in the table, pending, with the arguments of its creation; a one-shot job still with its time -/
def StillPending (s : State) (j : Job) : Prop :=
  ∃ x ∈ s.db.jobs, x.id = j.id ∧ x.status = .toRun ∧ x.key = j.key ∧ x.service = j.service ∧ x.cron = j.cron ∧ x.data = j.data ∧ (j.cron = 0 → x.next = j.next)

/-- what can happen from a state on -/
inductive Steps (c : Cfg) : State → State → Prop
  | refl (s) : Steps c s s
  | step {a b d} : Steps c a b → Step c b d → Steps c a d

end Ddd.Timer
