import Verif.Model.Err
/-!
# Database lock

Models `/repo/lock/db/sql.go`. Any number of clients; every call of `lock` draws a fresh `xid` (`sql.go:93`), so an attempt is
identified with its locker ID. One SQL statement is one step; evaluations of `time.Now()`/`time.Since` are steps of their own, so that
any delay between evaluating the clock and the execution of a statement is covered. One global clock is assumed.
-/
namespace Ddd.Lock

/-- a row of `resource_lock` (`lock/db/po.go:22-31`), under its unique `resource`; `ID` and `CreatedAt` are never read. -/
structure Row where
  locker : Nat
  updated : Nat
  deriving DecidableEq, Repr

/-- table `resource_lock`: `resource` is unique. (`lock/db/po.go:8-36`.) -/
abbrev Tab := Nat → Option Row

/-- Writing or deleting the row of a resource (`lock/db/po.go:23-36`). -/
def setTab (t : Tab) (k : Nat) (r : Option Row) : Tab := fun x => if x = k then r else t x

/-- `INSERT` (`sql.go:103-104`): fails with `ErrDuplicatedKey` (`false`) if the resource has a row. -/
def insertRow (t : Tab) (k : Nat) (r : Row) : Tab × Bool :=
  match t k with
  | none => (setTab t k (some r), true)
  | some _ => (t, false)

/-- `UPDATE ... SET updated_at, locker_id WHERE resource = k AND locker_id = owner` (`sql.go:119-121,148-151`); rows affected. -/
def casRow (t : Tab) (k owner : Nat) (r : Row) : Tab × Nat :=
  match t k with
  | some x => if x.locker = owner then (setTab t k (some r), 1) else (t, 0)
  | none => (t, 0)

/-- `DELETE WHERE locker_id = owner AND resource = k` (`sql.go:136`); rows affected. -/
def delRow (t : Tab) (k owner : Nat) : Tab × Nat :=
  match t k with
  | some x => if x.locker = owner then (setTab t k none, 1) else (t, 0)
  | none => (t, 0)

/-- Where an attempt is. (`lock/db/sql.go:92-159`.) -/
inductive Pc where
  /-- about to read (`sql.go:92-95`) -/
  | start (k : Nat)
  /-- no row was found (`sql.go:98-101`) -/
  | sawNone (k : Nat)
  /-- row `r` was read at time `tr` -/
  | saw (k : Nat) (r : Row) (tr : Nat)
  /-- about to insert with time stamp `u` (`sql.go:102-104`) -/
  | creating (k u : Nat)
  /-- about to compare-and-swap from `victim` with time stamp `u` (`sql.go:118-121`) -/
  | stealing (k victim u : Nat)
  /-- `Lock` returned a lock; `u` is the time stamp of its last successful statement -/
  | held (k u : Nat)
  /-- `lock` returned `ErrEntityLocked` -/
  | locked (k : Nat)
  /-- `lock` returned another error -/
  | failed (k : Nat)
  /-- `UnLock` returned nil -/
  | released (k : Nat)
  /-- `UnLock` returned "lock record not found" -/
  | lost (k : Nat)
  /-- `UnLock` returned another error -/
  | stuck (k : Nat)
  deriving DecidableEq, Repr

/-- The key, if this attempt obtained the lock at some time: only then there is a `keyLock` to call `update` with (`lock/db/sql.go:146-147,161-162`). -/
def Pc.had : Pc → Option Nat
  | .held k _ => some k
  | .released k => some k
  | .lost k => some k
  | .stuck k => some k
  | _ => none

/-- A successful renewal gives the lock a new time stamp, if it is still held (`lock/db/sql.go:148-151`). -/
def Pc.restamp (u : Nat) : Pc → Pc
  | .held k _ => .held k u
  | p => p

/-- The clock, the table, where every call of `lock` is (`lock/db/sql.go:92-144`), and the time stamps of the renewals under way: renewals are made by a goroutine
of their own (`lock/db/sql.go:177-186`), so they go on while the lock is given back, and one may be executed after that. -/
structure State where
  now : Nat
  tab : Tab
  pc : Nat → Pc
  ren : Nat → Option Nat := fun _ => none

/-- Auxiliary: attempt `l` of `lock/db/sql.go:92` goes on to `p`. -/
def State.at (s : State) (l : Nat) (p : Pc) : State := { s with pc := fun x => if x = l then p else s.pc x }

/-- Auxiliary: the renewals of attempt `l` (`lock/db/sql.go:178-185`) go on to `o`. -/
def State.renAt (s : State) (l : Nat) (o : Option Nat) : State := { s with ren := fun x => if x = l then o else s.ren x }

/-- What a step did, seen by its client. (`lock/db/sql.go:92-159`.) -/
inductive Ev where
  | tick
  | internal (l : Nat)
  | obtained (l : Nat)
  | refused (l : Nat)
  | renewed (l : Nat)
  | renewRefused (l : Nat)
  | released (l : Nat)
  | releaseRefused (l : Nat)
  /-- a statement of `Lock` returned another error; it may or may not have been executed -/
  | failed (l : Nat)
  /-- the statement of a renewal returned an error; it may or may not have been executed -/
  | renewFailed (l : Nat)
  /-- the statement of `UnLock` returned an error; it may or may not have been executed -/
  | unlockFailed (l : Nat)
  deriving DecidableEq, Repr

/-- When things happen: `renewOK u t`: a renewal of a row with time stamp `u` may execute at time `t`; `evalOK tr te`: a row read at
`tr` may be checked for expiry at `te`. Timing assumptions of the theorems are expressed as a policy. (Auxiliary of the model, the time between the statements of `lock/db/sql.go:92-159`.) -/
structure Policy where
  renewOK : Nat → Nat → Prop
  evalOK : Nat → Nat → Prop

/-- One step of the system. (One statement of `lock/db/sql.go:92-159`; the lines are with the constructors.) -/
inductive Step (ttl : Nat) (pol : Policy) : State → Ev → State → Prop
  | tick (s : State) (d : Nat) : Step ttl pol s .tick { s with now := s.now + d }
  /-- `First(&lock)` (`sql.go:94-97`) -/
  | read {s : State} {l k : Nat} : s.pc l = .start k →
      Step ttl pol s (.internal l) (s.at l (match s.tab k with | none => .sawNone k | some r => .saw k r s.now))
  | readErr {s : State} {l k : Nat} : s.pc l = .start k → Step ttl pol s (.failed l) (s.at l (.failed k))
  /-- gorm sets `UpdatedAt` before executing (`sql.go:103-104`) -/
  | prepare {s : State} {l k : Nat} : s.pc l = .sawNone k → Step ttl pol s (.internal l) (s.at l (.creating k s.now))
  /-- `Create` (`sql.go:104-111`) -/
  | create {s : State} {l k u : Nat} : s.pc l = .creating k u →
      Step ttl pol s (if (insertRow s.tab k ⟨l, u⟩).2 then .obtained l else .refused l)
        { s.at l (if (insertRow s.tab k ⟨l, u⟩).2 then .held k u else .locked k) with tab := (insertRow s.tab k ⟨l, u⟩).1 }
  | createErr {s : State} {l k u : Nat} (t : Tab) : s.pc l = .creating k u → t = s.tab ∨ t = (insertRow s.tab k ⟨l, u⟩).1 →
      Step ttl pol s (.failed l) { s.at l (.failed k) with tab := t }
  /-- `time.Since(lock.UpdatedAt) < r.ttl` (`sql.go:113-117`), then `time.Now()` for the update (`sql.go:121`) -/
  | check {s : State} {l k tr : Nat} {r : Row} : s.pc l = .saw k r tr → pol.evalOK tr s.now →
      Step ttl pol s (if s.now < r.updated + ttl then .refused l else .internal l)
        (s.at l (if s.now < r.updated + ttl then .locked k else .stealing k r.locker s.now))
  /-- compare-and-swap (`sql.go:119-131`) -/
  | steal {s : State} {l k v u : Nat} : s.pc l = .stealing k v u →
      Step ttl pol s (if (casRow s.tab k v ⟨l, u⟩).2 = 0 then .refused l else .obtained l)
        { s.at l (if (casRow s.tab k v ⟨l, u⟩).2 = 0 then .locked k else .held k u) with tab := (casRow s.tab k v ⟨l, u⟩).1 }
  | stealErr {s : State} {l k v u : Nat} (t : Tab) : s.pc l = .stealing k v u → t = s.tab ∨ t = (casRow s.tab k v ⟨l, u⟩).1 →
      Step ttl pol s (.failed l) { s.at l (.failed k) with tab := t }
  /-- `update` evaluates `time.Now()` (`sql.go:151`); one renewal at a time, at any time after the lock was obtained, also after `UnLock` -/
  | renewStart {s : State} {l k : Nat} : (s.pc l).had = some k → s.ren l = none → Step ttl pol s (.internal l) (s.renAt l (some s.now))
  /-- the statement of `update` (`sql.go:148-158`) -/
  | renew {s : State} {l k u' : Nat} : (s.pc l).had = some k → s.ren l = some u' →
      (∀ x, s.tab k = some x → x.locker = l → pol.renewOK x.updated s.now) →
      Step ttl pol s (if (casRow s.tab k l ⟨l, u'⟩).2 = 0 then .renewRefused l else .renewed l)
        { (s.renAt l none).at l (if (casRow s.tab k l ⟨l, u'⟩).2 = 0 then s.pc l else (s.pc l).restamp u') with tab := (casRow s.tab k l ⟨l, u'⟩).1 }
  | renewErr {s : State} {l k u' : Nat} (t : Tab) : (s.pc l).had = some k → s.ren l = some u' →
      (∀ x, s.tab k = some x → x.locker = l → pol.renewOK x.updated s.now) →
      t = s.tab ∨ t = (casRow s.tab k l ⟨l, u'⟩).1 → Step ttl pol s (.renewFailed l) { s.renAt l none with tab := t }
  /-- `UnLock` (`sql.go:134-144`) -/
  | unlock {s : State} {l k u : Nat} : s.pc l = .held k u →
      Step ttl pol s (if (delRow s.tab k l).2 = 0 then .releaseRefused l else .released l)
        { s.at l (if (delRow s.tab k l).2 = 0 then .lost k else .released k) with tab := (delRow s.tab k l).1 }
  | unlockErr {s : State} {l k u : Nat} (t : Tab) : s.pc l = .held k u → t = s.tab ∨ t = (delRow s.tab k l).1 →
      Step ttl pol s (.unlockFailed l) { s.at l (.stuck k) with tab := t }

/-- Initially every attempt is about to start (with any key); rows may be left over from attempts that ended before. (Before any call of `Lock` (`lock/db/sql.go:70`) under consideration.) -/
def Initial (s : State) : Prop :=
  (∀ l, s.ren l = none ∧ ∃ k, s.pc l = .start k ∨ s.pc l = .failed k) ∧ ∀ k r, s.tab k = some r → s.pc r.locker = .failed k ∧ r.updated ≤ s.now

/-- An execution, with its events. (Auxiliary of the model, executions of `lock/db/sql.go`.) -/
inductive Exec (ttl : Nat) (pol : Policy) : State → List Ev → State → Prop
  | nil (s : State) : Exec ttl pol s [] s
  | snoc {s s1 s2 : State} {es : List Ev} {e : Ev} : Exec ttl pol s es s1 → Step ttl pol s1 e s2 → Exec ttl pol s (es ++ [e]) s2

/-- what an attempt returns (`lock`, `sql.go:92-132`). -/
inductive Att where
  | ok | locked | err
  deriving DecidableEq, Repr

/-- `retry.Do` with `Attempts(n)`, `RetryIf(err == ErrEntityLocked)`, `LastErrorOnly` (`sql.go:76-88`; retry-go v3.0.0 `Do`): call until success, a
different error, or the last attempt. `i` numbers the calls; returns the last answer and the number of calls made. -/
def retryDo (att : Nat → Att) : Nat → Nat → Att × Nat
  | 0, i => (.locked, i)
  | n + 1, i =>
    match att i with
    | .ok => (.ok, i + 1)
    | .err => (.err, i + 1)
    | .locked => if n = 0 then (.locked, i + 1) else retryDo att n (i + 1)

/-- `DBLock.Lock` (`sql.go:70-90`): its answer and the number of attempts made. -/
def lockCall (retry : Bool) (att : Nat → Att) : Att × Nat :=
  if retry then retryDo att 5 0 else (att 0, 1)

end Ddd.Lock
