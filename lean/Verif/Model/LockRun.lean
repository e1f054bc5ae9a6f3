import Verif.Model.DBLock
/-!
# `DBLock.Run`

Models `/repo/lock/db/sql.go:55-68,161-189` on top of the database lock of `Model/DBLock.lean`: any number of calls of `Run` (of any number of processes), next to clients which use
`Lock` and `UnLock` only. Simplifications: the return of the callback and `ticker.Stop()` are one step; `runtime.Goexit` in the callback is not modelled; the variable `err` is shared by the
goroutine and the deferred function (`sql.go:162,167,179`), a data race which can affect log messages only.
-/
namespace Ddd.LockRun

/-- The parameters of a `DBLock` (`lock/db/sql.go:40-53`), durations in some unit; negative durations are as 0. -/
structure Conf where
  ttl : Nat
  interval : Nat
  retry : Bool := true

/-- `NewDBLock` (`lock/db/sql.go:55-68`): panics (`none`) if the time to live is less than the renew interval. -/
def newDBLock (c : Conf) : Option Conf := if c.ttl < c.interval then none else some c

/-- Number of attempts `Lock` makes at most (`lock/db/sql.go:71-74,86`). -/
def Conf.attempts (c : Conf) : Nat := if c.retry then 5 else 1

/-- How a call of `Run` ends (`lock/db/sql.go:161-189`). -/
inductive Outcome where
  /-- `Run` returned `ErrEntityLocked` (`sql.go:163-165`) -/
  | locked
  /-- `Run` returned another error of `Lock` (`sql.go:163-165`) -/
  | err
  /-- `Run` returned nil (`sql.go:188`) -/
  | done
  /-- the callback panicked and so does `Run` (`sql.go:187`) -/
  | panicked
  deriving DecidableEq, Repr

/-- Where the goroutine that called `Run` is (`lock/db/sql.go:161-189`). -/
inductive Job where
  /-- `Run` was not called yet -/
  | idle
  /-- in `Lock` (`sql.go:162`), in the attempt with locker ID `l`; `n` more attempts are allowed -/
  | trying (n l : Nat)
  /-- `Lock` returned (`sql.go:163`) -/
  | got (l : Nat)
  /-- the callback is being executed (`sql.go:187`) -/
  | running (l : Nat)
  /-- the callback returned or panicked, the ticker is stopped (`sql.go:174`), `UnLock` is about to be executed (`sql.go:166-170`) -/
  | leaving (l : Nat) (panics : Bool)
  | ended (o : Outcome)
  deriving DecidableEq, Repr

/-- Where the goroutine that renews the lock is (`lock/db/sql.go:177-186`). -/
inductive Helper where
  /-- not started yet -/
  | off
  /-- waiting for a tick (`sql.go:178`) -/
  | waiting (l : Nat)
  /-- in `update` (`sql.go:179`) -/
  | renewing (l : Nat)
  /-- left the loop and ended (`sql.go:180-184`) -/
  | gone
  deriving DecidableEq, Repr

/-- All calls of `Run` (`lock/db/sql.go:161-189`), numbered, above the state of the lock. -/
structure State where
  lock : Lock.State
  job : Nat → Job
  helper : Nat → Helper := fun _ => .off
  /-- argument `key` -/
  key : Nat → Nat
  /-- a tick is in the channel of the ticker (which has room for one) -/
  tick : Nat → Bool := fun _ => false
  /-- when the ticker sends its next tick -/
  due : Nat → Nat := fun _ => 0
  /-- `cancel()` was called (`sql.go:181`) -/
  cancelled : Nat → Bool := fun _ => false
  /-- argument `ctx` was cancelled by the caller -/
  parent : Nat → Bool := fun _ => false
  /-- the locker IDs drawn by calls of `Run` (`sql.go:93`), which are unique -/
  drawn : Nat → Option Nat := fun _ => none

/-- Auxiliary: one entry of a table (no counterpart in `lock/db/sql.go`). -/
def upd {α : Type} (f : Nat → α) (i : Nat) (x : α) : Nat → α := fun j => if j = i then x else f j

/-- What happens, as seen by the caller of `Run` number `r` and by the database (`lock/db/sql.go:161-189`). -/
inductive Ev where
  | call (r : Nat)
  | attempt (r : Nat) (a : Lock.Att)
  /-- the callback is called -/
  | begins (r : Nat)
  /-- the callback returns or panics -/
  | finishes (r : Nat) (panics : Bool)
  /-- `UnLock` was called; the row was removed by it -/
  | unlock (r : Nat) (ok : Bool)
  | renewal (r : Nat) (ok : Bool)
  | cancel (r : Nat)
  /-- time passes, another client makes a step, or a step that nobody sees -/
  | quiet
  deriving DecidableEq, Repr

/-- Statements made with a cancelled `ctx` fail without being executed (`sql.go:95,104,119,136,148`, `WithContext(ctx)`). -/
def Obeys (dead : Bool) (l : Nat) (e : Lock.Ev) (s s' : Lock.State) : Prop :=
  dead = true → s'.tab = s.tab ∧ e ≠ .obtained l ∧ e ≠ .renewed l ∧ e ≠ .released l ∧ e ≠ .renewRefused l ∧ e ≠ .releaseRefused l

/-- One step (`lock/db/sql.go:161-189`; the lines are with the constructors). -/
inductive Step (c : Conf) (pol : Lock.Policy) : State → Ev → State → Prop
  /-- time passes -/
  | time {s : State} (d : Nat) : Step c pol s .quiet { s with lock := { s.lock with now := s.lock.now + d } }
  /-- a client which does not use `Run`; it has no way to renew: `update` is not exported and `Run` is its only caller -/
  | other {s : State} {l : Nat} {e : Lock.Ev} {t : Lock.State} : s.drawn l = none → Lock.Step c.ttl pol s.lock e t →
      e = .internal l ∨ e = .obtained l ∨ e = .refused l ∨ e = .failed l ∨ e = .released l ∨ e = .releaseRefused l ∨ e = .unlockFailed l → t.ren = s.lock.ren →
      Step c pol s .quiet { s with lock := t }
  /-- the caller cancels `ctx` -/
  | cancel {s : State} (r : Nat) : Step c pol s (.cancel r) { s with parent := upd s.parent r true }
  /-- `Run` is called; the first attempt draws its locker ID (`sql.go:161-162,93`) -/
  | call {s : State} {r l : Nat} : s.job r = .idle → s.drawn l = none → s.lock.pc l = .start (s.key r) →
      Step c pol s (.call r) { s with job := upd s.job r (.trying (c.attempts - 1) l), drawn := upd s.drawn l (some r) }
  /-- a statement or a clock reading of an attempt, which goes on -/
  | attempt {s : State} {r n l : Nat} {t : Lock.State} : s.job r = .trying n l → Lock.Step c.ttl pol s.lock (.internal l) t → Obeys (s.parent r) l (.internal l) s.lock t →
      Step c pol s .quiet { s with lock := t }
  /-- an attempt is refused and there is another one (`sql.go:76-88`) -/
  | again {s : State} {r n l l' : Nat} {t : Lock.State} : s.job r = .trying (n + 1) l → Lock.Step c.ttl pol s.lock (.refused l) t → Obeys (s.parent r) l (.refused l) s.lock t →
      s.drawn l' = none → t.pc l' = .start (s.key r) →
      Step c pol s (.attempt r .locked) { s with lock := t, job := upd s.job r (.trying n l'), drawn := upd s.drawn l' (some r) }
  /-- the last attempt is refused (`sql.go:163-165`) -/
  | giveUp {s : State} {r l : Nat} {t : Lock.State} : s.job r = .trying 0 l → Lock.Step c.ttl pol s.lock (.refused l) t → Obeys (s.parent r) l (.refused l) s.lock t →
      Step c pol s (.attempt r .locked) { s with lock := t, job := upd s.job r (.ended .locked) }
  /-- an attempt fails (`sql.go:163-165`) -/
  | failed {s : State} {r n l : Nat} {t : Lock.State} : s.job r = .trying n l → Lock.Step c.ttl pol s.lock (.failed l) t → Obeys (s.parent r) l (.failed l) s.lock t →
      Step c pol s (.attempt r .err) { s with lock := t, job := upd s.job r (.ended .err) }
  /-- an attempt succeeds -/
  | obtained {s : State} {r n l : Nat} {t : Lock.State} : s.job r = .trying n l → Lock.Step c.ttl pol s.lock (.obtained l) t → Obeys (s.parent r) l (.obtained l) s.lock t →
      Step c pol s (.attempt r .ok) { s with lock := t, job := upd s.job r (.got l) }
  /-- the ticker and the goroutine are started, the callback is called (`sql.go:172-187`) -/
  | begins {s : State} {r l : Nat} : s.job r = .got l → 0 < c.interval →
      Step c pol s (.begins r) { s with job := upd s.job r (.running l), helper := upd s.helper r (.waiting l), due := upd s.due r (s.lock.now + c.interval) }
  /-- `time.NewTicker` panics if the interval is not positive (`sql.go:172`); the deferred function calls `UnLock` (`sql.go:166-170`) -/
  | noTicker {s : State} {r l : Nat} : s.job r = .got l → c.interval = 0 →
      Step c pol s .quiet { s with job := upd s.job r (.leaving l true) }
  /-- the ticker sends a tick, which is lost if there is one in the channel (`sql.go:172`) -/
  | ring {s : State} {r l : Nat} : s.job r = .running l → s.due r ≤ s.lock.now →
      Step c pol s .quiet { s with tick := upd s.tick r true, due := upd s.due r (s.due r + c.interval) }
  /-- the goroutine receives a tick and calls `update` (`sql.go:178-179,151`) -/
  | wake {s : State} {r l : Nat} {t : Lock.State} : s.helper r = .waiting l → s.tick r = true → Lock.Step c.ttl pol s.lock (.internal l) t → t.ren l = some s.lock.now →
      Step c pol s .quiet { s with lock := t, tick := upd s.tick r false, helper := upd s.helper r (.renewing l) }
  /-- the renewal succeeds (`sql.go:178-179`) -/
  | renewed {s : State} {r l : Nat} {t : Lock.State} : s.helper r = .renewing l → Lock.Step c.ttl pol s.lock (.renewed l) t → Obeys (s.parent r) l (.renewed l) s.lock t →
      Step c pol s (.renewal r true) { s with lock := t, helper := upd s.helper r (.waiting l) }
  /-- the renewal does not succeed: the context of the callback is cancelled, the goroutine ends (`sql.go:179-184`) -/
  | notRenewed {s : State} {r l : Nat} {t : Lock.State} {e : Lock.Ev} : s.helper r = .renewing l → Lock.Step c.ttl pol s.lock e t → e = .renewRefused l ∨ e = .renewFailed l →
      Obeys (s.parent r) l e s.lock t →
      Step c pol s (.renewal r false) { s with lock := t, helper := upd s.helper r .gone, cancelled := upd s.cancelled r true }
  /-- the callback returns or panics, the ticker is stopped (`sql.go:187,174`) -/
  | finishes {s : State} {r l : Nat} (panics : Bool) : s.job r = .running l →
      Step c pol s (.finishes r panics) { s with job := upd s.job r (.leaving l panics) }
  /-- `UnLock` removes the row; `Run` returns, or goes on panicking (`sql.go:166-170,188`) -/
  | released {s : State} {r l : Nat} {panics : Bool} {t : Lock.State} : s.job r = .leaving l panics → Lock.Step c.ttl pol s.lock (.released l) t → Obeys (s.parent r) l (.released l) s.lock t →
      Step c pol s (.unlock r true) { s with lock := t, job := upd s.job r (.ended (if panics then .panicked else .done)) }
  /-- `UnLock` returns an error, which is logged; `Run` returns as if nothing happened (`sql.go:166-170,188`) -/
  | notReleased {s : State} {r l : Nat} {panics : Bool} {t : Lock.State} {e : Lock.Ev} : s.job r = .leaving l panics → Lock.Step c.ttl pol s.lock e t →
      e = .releaseRefused l ∨ e = .unlockFailed l → Obeys (s.parent r) l e s.lock t →
      Step c pol s (.unlock r false) { s with lock := t, job := upd s.job r (.ended (if panics then .panicked else .done)) }

/-- Before the first call of `Run` (`lock/db/sql.go:161`). -/
def Initial (s : State) : Prop :=
  Lock.Initial s.lock ∧ (∀ r, s.job r = .idle ∧ s.helper r = .off ∧ s.tick r = false ∧ s.cancelled r = false) ∧ ∀ l, s.drawn l = none

/-- An execution with its events (of `lock/db/sql.go:161-189`). -/
inductive Exec (c : Conf) (pol : Lock.Policy) : State → List Ev → State → Prop
  | nil (s : State) : Exec c pol s [] s
  | snoc {s s1 s2 : State} {es : List Ev} {e : Ev} : Exec c pol s es s1 → Step c pol s1 e s2 → Exec c pol s (es ++ [e]) s2

end Ddd.LockRun
