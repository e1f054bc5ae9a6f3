import Verif.Model.DBLock
/-!
# The database lock with clocks that differ

`Model/DBLock.lean` has one clock and one lease time. Here every client has its own clock and its own lease time (`ttl` is a parameter of each `DBLock` object, `lock/db/sql.go:55-68`): `time.Now()` is evaluated in the process that calls it
(`sql.go:113,121`, gorm's `UpdatedAt` in `sql.go:104`), so the time stamp in the row is one of the holder's clock and is compared with the clock of the client that wants the lock. `Lock` and `UnLock` only, as the engine uses them (`engine.go:1217-1235`).
-/
namespace Ddd.Lock.Skew

/-- the lease time of each client's `DBLock` object, and which readings its clock may give at a (true) time (`lock/db/sql.go:55-68,113`) -/
structure Cfg where
  ttl : Nat → Nat
  reads : Nat → Nat → Nat → Prop

/-- One step: one statement of `lock/db/sql.go:92-144`, or the evaluation of a clock; errors leave open whether the statement was executed -/
inductive Step (cfg : Cfg) : State → State → Prop
  | tick (s : State) (d : Nat) : Step cfg s { s with now := s.now + d }
  /-- `First(&lock)` (`sql.go:94-97`) -/
  | read {s : State} {l k : Nat} : s.pc l = .start k → Step cfg s (s.at l (match s.tab k with | none => .sawNone k | some r => .saw k r s.now))
  | readErr {s : State} {l k : Nat} : s.pc l = .start k → Step cfg s (s.at l (.failed k))
  /-- gorm sets `UpdatedAt` from the client's clock (`sql.go:103-104`) -/
  | prepare {s : State} {l k c : Nat} : s.pc l = .sawNone k → cfg.reads l s.now c → Step cfg s (s.at l (.creating k c))
  /-- `Create` (`sql.go:104-111`) -/
  | create {s : State} {l k u : Nat} : s.pc l = .creating k u →
      Step cfg s { s.at l (if (insertRow s.tab k ⟨l, u⟩).2 then .held k u else .locked k) with tab := (insertRow s.tab k ⟨l, u⟩).1 }
  | createErr {s : State} {l k u : Nat} (t : Tab) : s.pc l = .creating k u → t = s.tab ∨ t = (insertRow s.tab k ⟨l, u⟩).1 → Step cfg s { s.at l (.failed k) with tab := t }
  /-- `time.Since(lock.UpdatedAt) < r.ttl` (`sql.go:113-117`) with the client's clock and lease time -/
  | checkLocked {s : State} {l k tr c : Nat} {r : Row} : s.pc l = .saw k r tr → cfg.reads l s.now c → c < r.updated + cfg.ttl l → Step cfg s (s.at l (.locked k))
  /-- … expired; `time.Now()` for the update is evaluated a little later (`sql.go:121`) -/
  | checkExpired {s : State} {l k tr c c' : Nat} {r : Row} : s.pc l = .saw k r tr → cfg.reads l s.now c → cfg.reads l s.now c' → r.updated + cfg.ttl l ≤ c →
      Step cfg s (s.at l (.stealing k r.locker c'))
  /-- compare-and-swap (`sql.go:119-131`) -/
  | steal {s : State} {l k v u : Nat} : s.pc l = .stealing k v u →
      Step cfg s { s.at l (if (casRow s.tab k v ⟨l, u⟩).2 = 0 then .locked k else .held k u) with tab := (casRow s.tab k v ⟨l, u⟩).1 }
  | stealErr {s : State} {l k v u : Nat} (t : Tab) : s.pc l = .stealing k v u → t = s.tab ∨ t = (casRow s.tab k v ⟨l, u⟩).1 → Step cfg s { s.at l (.failed k) with tab := t }
  /-- `UnLock` (`sql.go:134-144`) -/
  | unlock {s : State} {l k u : Nat} : s.pc l = .held k u →
      Step cfg s { s.at l (if (delRow s.tab k l).2 = 0 then .lost k else .released k) with tab := (delRow s.tab k l).1 }
  | unlockErr {s : State} {l k u : Nat} (t : Tab) : s.pc l = .held k u → t = s.tab ∨ t = (delRow s.tab k l).1 → Step cfg s { s.at l (.stuck k) with tab := t }

/-- Initially every attempt is about to start; rows may be left over from attempts that ended before (before any call of `Lock`, `lock/db/sql.go:70`). -/
def Initial (s : State) : Prop :=
  (∀ l, ∃ k, s.pc l = .start k ∨ s.pc l = .failed k) ∧ ∀ k r, s.tab k = some r → s.pc r.locker = .failed k

/-- the states of executions (`lock/db/sql.go:92-144`) -/
inductive Reachable (cfg : Cfg) : State → Prop
  | init {s : State} : Initial s → Reachable cfg s
  | step {s s' : State} : Reachable cfg s → Step cfg s s' → Reachable cfg s'

end Ddd.Lock.Skew
