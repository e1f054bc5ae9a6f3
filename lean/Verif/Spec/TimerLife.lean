import Verif.Model.TimerLife
/-! Vocabulary of C99: the life of a process with a timer. -/
namespace Ddd.Spec
open Ddd.Timer Ddd.TimerLife

/-- no process was ever started -/
def noProcess (db : DB) : TimerLife.State := { now := 0, db := db, alive := false, started := false, loops := 0, pass := none, calls := [] }

/-- the table is ordered by its primary key -/
def Ordered (db : DB) : Prop := db.jobs.Pairwise fun a b => a.id < b.id

/-- job `j` is waiting in the table and its time has come -/
def Waiting (svc : Nat) (j : Job) (s : TimerLife.State) : Prop := j ∈ s.db.jobs ∧ j.service = svc ∧ j.status = .toRun ∧ j.next ≤ s.now

/-- what happens while the process goes on: it is not restarted -/
inductive Onward (c : Cfg) (interval : Int) (svc : Nat) (cb : Nat → Job → Ans) (mayLock maySave : Bool) (others : DB → DB → Prop) : TimerLife.State → TimerLife.State → Prop
  | refl (s) : Onward c interval svc cb mayLock maySave others s s
  | snoc {s s1 s2} : Onward c interval svc cb mayLock maySave others s s1 → TimerLife.Step c interval svc cb mayLock maySave others s1 s2 → s2.started = true → Onward c interval svc cb mayLock maySave others s s2

/-- what clients of the timer (of any service) do to the table, one after the other: registrations, at whatever time their clock shows (up to a bound), and cancels -/
inductive Clients (c : Cfg) : DB → DB → Prop
  | register (db : DB) (svc t : Nat) (r : Req) : t ≤ c.ahead → Clients c db (Timer.register c db svc t r).1
  | cancel (db : DB) (key : Nat) : Clients c db (Timer.cancel db key).1

end Ddd.Spec
