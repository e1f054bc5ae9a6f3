import Mathlib.Data.List.Basic
/-!
# Redis lock

Models `/repo/lock/redis/redis.go` with the parts of `github.com/bsm/redislock` it calls: `Obtain` is `SET key token NX PX ttl`, repeated after a pause while another value is there;
`Release` is "delete if the value is my token". Each call of `Lock` draws a random token, so an attempt is identified with its token (tokens are assumed to be different). One command of the server is one
step; time is the clock of the server. There is no renewal.
-/
namespace Ddd.Redis

/-- what the server stores under a key: token and the time at which it expires (the server behind `lock/redis/redis.go:37-58`) -/
structure Val where
  token : Nat
  expires : Nat
  deriving DecidableEq, Repr

/-- The keys of the server behind `lock/redis/redis.go:37-58`. -/
abbrev Tab := Nat → Option Val

/-- `GET` at time `now`: expired values are gone (the server behind `lock/redis/redis.go:37-58`) -/
def live (t : Tab) (now k : Nat) : Option Nat :=
  match t k with
  | some v => if now < v.expires then some v.token else none
  | none => none

/-- `SET k token NX PX ttl` (in `Obtain`, `redis.go:38-41`): performed if there is no value -/
def setNX (t : Tab) (now ttl k token : Nat) : Tab × Bool :=
  match live t now k with
  | none => ((fun x => if x = k then some ⟨token, now + ttl⟩ else t x), true)
  | some _ => (t, false)

/-- the script of `Release` (`redis.go:47-50`): delete if the value is the token -/
def delIf (t : Tab) (now k token : Nat) : Tab × Bool :=
  if live t now k = some token then ((fun x => if x = k then none else t x), true) else (t, false)

/-- Where a call of `Lock` and the use of its result are. (`lock/redis/redis.go:37-58`.) -/
inductive Pc where
  /-- the key was found taken `n` times; the next attempt is made at time `at_` or later -/
  | trying (k n at_ : Nat)
  /-- `Lock` returned a lock, set at time `u` -/
  | held (k u : Nat)
  /-- `Lock` returned `ErrEntityLocked` -/
  | locked (k : Nat)
  /-- some command failed with another error, which was returned -/
  | failed (k : Nat)
  /-- `UnLock` returned nil -/
  | released (k : Nat)
  /-- `UnLock` returned `redislock.ErrLockNotHeld` -/
  | lost (k : Nat)
  deriving DecidableEq, Repr

/-- The clock, the server and where every call of `Lock` is (`lock/redis/redis.go:37-58`). -/
structure State where
  now : Nat
  tab : Tab
  pc : Nat → Pc

/-- Auxiliary: call `l` of `Lock` (`lock/redis/redis.go:37`) goes on to `p`. -/
def State.at (s : State) (l : Nat) (p : Pc) : State := { s with pc := fun x => if x = l then p else s.pc x }

/-- What a step of `lock/redis/redis.go:37-58` did, seen by its client. -/
inductive Ev where
  | tick
  /-- an attempt found the key taken; `Obtain` waits -/
  | wait (l : Nat)
  | obtained (l : Nat)
  | refused (l : Nat)
  /-- the context ended while waiting: `Lock` returns an error (which one depends on the version of redislock; the model leaves it open) -/
  | gaveUp (l : Nat)
  | released (l : Nat)
  | releaseRefused (l : Nat)
  /-- `Lock` returned another error; the command may or may not have been executed -/
  | lockFailed (l : Nat)
  /-- `UnLock` returned another error; the command may or may not have been executed -/
  | unlockFailed (l : Nat)
  deriving DecidableEq, Repr

/-- `LimitRetry(LinearBackoff(100ms), 30)` (`redis.go:40`), time in milliseconds -/
def maxRetry : Nat := 30
/-- `LinearBackoff(100 * time.Millisecond)` (`lock/redis/redis.go:38-41`). -/
def backoff : Nat := 100

/-- One step of the system. (The lines of `lock/redis/redis.go` are with the constructors.) -/
inductive Step (ttl : Nat) : State → Ev → State → Prop
  | tick (s : State) (d : Nat) : Step ttl s .tick { s with now := s.now + d }
  /-- an attempt that finds the key free (`redis.go:38-45`) -/
  | obtain {s : State} {l k n a : Nat} : s.pc l = .trying k n a → a ≤ s.now → (setNX s.tab s.now ttl k l).2 = true →
      Step ttl s (.obtained l) { s.at l (.held k s.now) with tab := (setNX s.tab s.now ttl k l).1 }
  /-- an attempt that does not: wait, or after the last retry `ErrNotObtained`, which becomes `ErrEntityLocked` (`redis.go:41-43`) -/
  | taken {s : State} {l k n a : Nat} : s.pc l = .trying k n a → a ≤ s.now → (setNX s.tab s.now ttl k l).2 = false →
      Step ttl s (if n < maxRetry then .wait l else .refused l) (s.at l (if n < maxRetry then .trying k (n + 1) (s.now + backoff) else .locked k))
  /-- the context is done while waiting (`Obtain` waits no longer than the deadline of the context, or the ttl if it has none) -/
  | giveUp {s : State} {l k n a : Nat} : s.pc l = .trying k (n + 1) a → Step ttl s (.gaveUp l) (s.at l (.failed k))
  | obtainErr {s : State} {l k n a : Nat} (t : Tab) : s.pc l = .trying k n a → t = s.tab ∨ t = (setNX s.tab s.now ttl k l).1 →
      Step ttl s (.lockFailed l) { s.at l (.failed k) with tab := t }
  /-- `UnLock` (`redis.go:47-50`) -/
  | release {s : State} {l k u : Nat} : s.pc l = .held k u →
      Step ttl s (if (delIf s.tab s.now k l).2 then .released l else .releaseRefused l)
        { s.at l (if (delIf s.tab s.now k l).2 then .released k else .lost k) with tab := (delIf s.tab s.now k l).1 }
  | releaseErr {s : State} {l k u : Nat} (t : Tab) : s.pc l = .held k u → t = s.tab ∨ t = (delIf s.tab s.now k l).1 →
      Step ttl s (.unlockFailed l) { s.at l (.failed k) with tab := t }

/-- an execution with what happened (Auxiliary of the model, executions of `lock/redis/redis.go`) -/
inductive Exec (ttl : Nat) : State → List Ev → State → Prop
  | nil (s : State) : Exec ttl s [] s
  | snoc {s s1 s2 : State} {es : List Ev} {e : Ev} : Exec ttl s es s1 → Step ttl s1 e s2 → Exec ttl s (es ++ [e]) s2

/-- no value of an attempt is on the server; all attempts are to come (Before any call of `Lock` (`lock/redis/redis.go:37`)) -/
def Initial (s : State) : Prop := (∀ l, ∃ k, s.pc l = .trying k 0 0) ∧ ∀ k, s.tab k = none

end Ddd.Redis
