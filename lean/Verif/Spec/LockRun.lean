import Verif.Model.LockRun
/-! # Specification vocabulary: `DBLock.Run` -/
namespace Ddd.LockRun

/-- the events of call `r` of `Run` that its caller sees. -/
def seen (r : Nat) : Ev → Bool
  | .call r' => r' = r
  | .attempt r' _ => r' = r
  | .begins r' => r' = r
  | .finishes r' _ => r' = r
  | .unlock r' _ => r' = r
  | _ => false

/-- What call `r` of `Run` may do from its begin to its end, if `Lock` makes at most `m` attempts. -/
inductive Story (m r : Nat) : List Ev → Outcome → Prop
  /-- `Lock` fails: the callback is not called, nothing is unlocked, the error is returned -/
  | failed (n : Nat) : n < m → Story m r (.call r :: List.replicate n (.attempt r .locked) ++ [.attempt r .err]) .err
  | locked : Story m r (.call r :: List.replicate m (.attempt r .locked)) .locked
  /-- the lock is obtained: the callback is called once, and `UnLock` once after it returned or panicked; whatever `UnLock` answers, `Run` ends as the callback did -/
  | full (n : Nat) (panics ok : Bool) : n < m →
      Story m r (.call r :: List.replicate n (.attempt r .locked) ++ [.attempt r .ok, .begins r, .finishes r panics, .unlock r ok]) (if panics then .panicked else .done)

/-- the same, with a renew interval that is not positive. -/
inductive Story0 (m r : Nat) : List Ev → Outcome → Prop
  | failed (n : Nat) : n < m → Story0 m r (.call r :: List.replicate n (.attempt r .locked) ++ [.attempt r .err]) .err
  | locked : Story0 m r (.call r :: List.replicate m (.attempt r .locked)) .locked
  /-- the lock is obtained and given back, the callback is not called -/
  | panics (n : Nat) (ok : Bool) : n < m → Story0 m r (.call r :: List.replicate n (.attempt r .locked) ++ [.attempt r .ok, .unlock r ok]) .panicked

/-- the callback of call `r` is being executed. -/
def Executes (s : State) (r : Nat) : Prop := ∃ l, s.job r = .running l

/-- the context the callback of call `r` was given is done. -/
def Told (s : State) (r : Nat) : Prop := s.cancelled r = true ∨ s.parent r = true

/-- the callback is executed, and another locker has the row of the key, or nobody. -/
def Overtaken (s : State) (r : Nat) : Prop := ∃ l, s.job r = .running l ∧ (s.lock.tab (s.key r)).map Lock.Row.locker ≠ some l

/-- Everything that is to be done is done within `d`: the callback is called within `d` of the time stamp of the lock, a tick is sent within `d` of its time, and the renewal it is for is
finished within `d` of that time. -/
def Prompt (c : Conf) (d : Nat) (s : State) : Prop :=
  ∀ r, (∀ l, s.job r = .got l → ∀ k u, s.lock.pc l = .held k u → s.lock.now ≤ u + d) ∧
    (∀ l, s.job r = .running l → s.helper r ≠ .gone → s.lock.now ≤ s.due r + d) ∧
    ((s.tick r = true ∧ s.helper r ≠ .gone) ∨ (∃ l, s.helper r = .renewing l) → s.lock.now + c.interval ≤ s.due r + d)

/-- The only assumption on the lock: a row that was read is checked within `d`. -/
def checksWithin (d : Nat) : Lock.Policy := { renewOK := fun _ _ => True, evalOK := fun tr te => tr ≤ te ∧ te ≤ tr + d }

/-- an execution all of whose states are prompt. -/
inductive PromptExec (c : Conf) (d : Nat) : State → List Ev → State → Prop
  | nil {s : State} : Prompt c d s → PromptExec c d s [] s
  | snoc {s s1 s2 : State} {es : List Ev} {e : Ev} : PromptExec c d s es s1 → Step c (checksWithin d) s1 e s2 → Prompt c d s2 → PromptExec c d s (es ++ [e]) s2

end Ddd.LockRun
