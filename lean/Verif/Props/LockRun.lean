import Verif.Proofs.LockRun
import Mathlib.Data.List.Basic
/-!
# C93, C95: `DBLock.Run`
-/
set_option linter.unusedVariables false
set_option linter.unusedSimpArgs false
namespace Ddd.LockRun
open Lock (Pc)

/-! ## What a call does -/

/-- the events so far, by where the call is. -/
def Progress (c : Conf) (r : Nat) (w : List Ev) : Job → Prop
  | .idle => w = []
  | .trying n _ => ∃ m, m + n + 1 = c.attempts ∧ w = .call r :: List.replicate m (.attempt r .locked)
  | .got _ => ∃ m, m < c.attempts ∧ w = .call r :: List.replicate m (.attempt r .locked) ++ [.attempt r .ok]
  | .running _ => 0 < c.interval ∧ ∃ m, m < c.attempts ∧ w = .call r :: List.replicate m (.attempt r .locked) ++ [.attempt r .ok, .begins r]
  | .leaving _ p => ∃ m, m < c.attempts ∧ ((0 < c.interval ∧ w = .call r :: List.replicate m (.attempt r .locked) ++ [.attempt r .ok, .begins r, .finishes r p]) ∨
      (c.interval = 0 ∧ p = true ∧ w = .call r :: List.replicate m (.attempt r .locked) ++ [.attempt r .ok]))
  | .ended o => if 0 < c.interval then Story c.attempts r w o else Story0 c.attempts r w o

theorem attempts_pos (c : Conf) : 0 < c.attempts := by unfold Conf.attempts; split <;> omega

theorem progress_exec {c : Conf} {pol : Lock.Policy} {s0 s : State} {es : List Ev} (h0 : Initial s0) (hx : Exec c pol s0 es s) (r : Nat) :
    Progress c r (es.filter (seen r)) (s.job r) := by
  induction hx with
  | nil => rw [(h0.2.1 r).1]; rfl
  | snoc hx st ih =>
    rename_i s1 s2 es e
    rw [List.filter_append]
    have skip : ∀ {j : Job}, seen r e = false → j = s1.job r → Progress c r (es.filter (seen r) ++ [e].filter (seen r)) j := by
      intro j h hj; rw [hj]; simpa [h] using ih
    cases st
    case time => exact skip rfl rfl
    case other => exact skip rfl rfl
    case cancel => exact skip rfl rfl
    case attempt => exact skip rfl rfl
    case ring => exact skip rfl rfl
    case wake => exact skip rfl rfl
    case renewed => exact skip rfl rfl
    case notRenewed => exact skip rfl rfl
    case call r' l hj hd hp =>
      by_cases hr : r = r'
      · subst hr
        rw [hj] at ih
        simp only [Progress] at ih
        have hp := attempts_pos c
        simp only [upd, if_true, ih, seen, decide_true, List.filter_cons_of_pos, List.filter_nil, List.nil_append]
        exact ⟨0, by omega, by simp⟩
      · exact skip (by simp [seen]; omega) (by simp [upd, hr])
    case again r' n l l' t hj st1 ho hd hp =>
      by_cases hr : r = r'
      · subst hr
        rw [hj] at ih
        obtain ⟨m, hm, hw⟩ := ih
        simp only [upd, if_true, hw, seen, decide_true, List.filter_cons_of_pos, List.filter_nil, List.cons_append]
        exact ⟨m + 1, by omega, by rw [List.replicate_succ']⟩
      · exact skip (by simp [seen]; omega) (by simp [upd, hr])
    case giveUp r' l t hj st1 ho =>
      by_cases hr : r = r'
      · subst hr
        rw [hj] at ih
        obtain ⟨m, hm, hw⟩ := ih
        simp only [upd, if_true, hw, seen, decide_true, List.filter_cons_of_pos, List.filter_nil, List.cons_append, Progress]
        rw [← List.replicate_succ', show m + 1 = c.attempts by omega]
        split <;> constructor
      · exact skip (by simp [seen]; omega) (by simp [upd, hr])
    case failed r' n l t hj st1 ho =>
      by_cases hr : r = r'
      · subst hr
        rw [hj] at ih
        obtain ⟨m, hm, hw⟩ := ih
        simp only [upd, if_true, hw, seen, decide_true, List.filter_cons_of_pos, List.filter_nil, Progress]
        split
        · exact .failed m (by omega)
        · exact .failed m (by omega)
      · exact skip (by simp [seen]; omega) (by simp [upd, hr])
    case obtained r' n l t hj st1 ho =>
      by_cases hr : r = r'
      · subst hr
        rw [hj] at ih
        obtain ⟨m, hm, hw⟩ := ih
        simp only [upd, if_true, hw, seen, decide_true, List.filter_cons_of_pos, List.filter_nil]
        exact ⟨m, by omega, rfl⟩
      · exact skip (by simp [seen]; omega) (by simp [upd, hr])
    case begins r' l hj hi =>
      by_cases hr : r = r'
      · subst hr
        rw [hj] at ih
        obtain ⟨m, hm, hw⟩ := ih
        simp only [upd, if_true, hw, seen, decide_true, List.filter_cons_of_pos, List.filter_nil]
        exact ⟨hi, m, hm, by simp⟩
      · exact skip (by simp [seen]; omega) (by simp [upd, hr])
    case noTicker r' l hj hi =>
      by_cases hr : r = r'
      · subst hr
        rw [hj] at ih
        obtain ⟨m, hm, hw⟩ := ih
        simp only [upd, if_true, hw, seen, List.filter_nil, List.append_nil, Bool.false_eq_true, not_false_eq_true, List.filter_cons_of_neg]
        exact ⟨m, hm, .inr ⟨hi, rfl, rfl⟩⟩
      · exact skip rfl (by simp [upd, hr])
    case finishes r' l p hj =>
      by_cases hr : r = r'
      · subst hr
        rw [hj] at ih
        obtain ⟨hi, m, hm, hw⟩ := ih
        simp only [upd, if_true, hw, seen, decide_true, List.filter_cons_of_pos, List.filter_nil]
        exact ⟨m, hm, .inl ⟨hi, by simp⟩⟩
      · exact skip (by simp [seen]; omega) (by simp [upd, hr])
    case released r' l p t hj st1 ho =>
      by_cases hr : r = r'
      · subst hr
        rw [hj] at ih
        obtain ⟨m, hm, ⟨hi, hw⟩ | ⟨hi, rfl, hw⟩⟩ := ih
        · simp only [upd, if_true, hw, seen, decide_true, List.filter_cons_of_pos, List.filter_nil, Progress, hi]
          simpa using Story.full (r := r) m p true hm
        · simp only [upd, if_true, hw, seen, decide_true, List.filter_cons_of_pos, List.filter_nil, Progress, hi, Nat.lt_irrefl, if_false]
          simpa using Story0.panics (r := r) m true hm
      · exact skip (by simp [seen]; omega) (by simp [upd, hr])
    case notReleased r' l p t e hj st1 he ho =>
      by_cases hr : r = r'
      · subst hr
        rw [hj] at ih
        obtain ⟨m, hm, ⟨hi, hw⟩ | ⟨hi, rfl, hw⟩⟩ := ih
        · simp only [upd, if_true, hw, seen, decide_true, List.filter_cons_of_pos, List.filter_nil, Progress, hi]
          simpa using Story.full (r := r) m p false hm
        · simp only [upd, if_true, hw, seen, decide_true, List.filter_cons_of_pos, List.filter_nil, Progress, hi, Nat.lt_irrefl, if_false]
          simpa using Story0.panics (r := r) m false hm
      · exact skip (by simp [seen]; omega) (by simp [upd, hr])

/-- **C93** What a call of `Run` does, at any time of any execution with any number of other calls, is the beginning of a story: at most five attempts to lock, of which all but the last are refused
because the key is locked; if the last one does not succeed, its error is returned, the callback is not called and nothing is unlocked; if it succeeds, the callback is called exactly once, then
`UnLock` exactly once, also when the callback panics, and `Run` returns nil, or panics as the callback did, whether `UnLock` succeeds or not. A call that ended has done all of its story. -/
theorem C93_story {c : Conf} {pol : Lock.Policy} {s0 s : State} {es : List Ev} (hi : 0 < c.interval) (h0 : Initial s0) (hx : Exec c pol s0 es s) (r : Nat) :
    (∃ w o, Story (if c.retry then 5 else 1) r w o ∧ es.filter (seen r) <+: w) ∧ ∀ o, s.job r = .ended o → Story (if c.retry then 5 else 1) r (es.filter (seen r)) o := by
  rw [show (if c.retry then 5 else 1) = c.attempts from rfl]
  have h := progress_exec h0 hx r
  have ha := attempts_pos c
  refine ⟨?_, fun o ho => by rw [ho] at h; simpa [Progress, hi] using h⟩
  cases hj : s.job r with
  | idle => rw [hj] at h; rw [show es.filter (seen r) = [] from h]; exact ⟨_, _, .locked, by simp⟩
  | trying n l =>
    rw [hj] at h; obtain ⟨m, hm, hw⟩ := h
    exact ⟨_, _, .failed m (by omega), by rw [hw]; exact List.prefix_append _ _⟩
  | got l =>
    rw [hj] at h; obtain ⟨m, hm, hw⟩ := h
    exact ⟨_, _, .full m true true hm, by rw [hw]; exact ⟨[.begins r, .finishes r true, .unlock r true], by simp⟩⟩
  | running l =>
    rw [hj] at h; obtain ⟨_, m, hm, hw⟩ := h
    exact ⟨_, _, .full m true true hm, by rw [hw]; exact ⟨[.finishes r true, .unlock r true], by simp⟩⟩
  | leaving l p =>
    rw [hj] at h; obtain ⟨m, hm, ⟨_, hw⟩ | ⟨h2, _⟩⟩ := h
    · exact ⟨_, _, .full m p true hm, by rw [hw]; exact ⟨[.unlock r true], by simp⟩⟩
    · omega
  | ended o => rw [hj] at h; exact ⟨_, o, by simpa [Progress, hi] using h, List.prefix_rfl⟩

/-- **C93** With a renew interval of zero or less, which `NewDBLock` accepts, the callback is never called: `Run` panics after it obtained the lock (and gives it back). -/
theorem C93_zero_interval {c : Conf} {pol : Lock.Policy} {s0 s : State} {es : List Ev} (hi : c.interval = 0) (h0 : Initial s0) (hx : Exec c pol s0 es s) (r : Nat) :
    newDBLock c = some c ∧ .begins r ∉ es ∧ ∀ o, s.job r = .ended o → Story0 (if c.retry then 5 else 1) r (es.filter (seen r)) o := by
  rw [show (if c.retry then 5 else 1) = c.attempts from rfl]
  refine ⟨by simp [newDBLock, hi], ?_, fun o ho => by have h := progress_exec h0 hx r; rw [ho] at h; simpa [Progress, hi] using h⟩
  intro hm
  have : .begins r ∈ es.filter (seen r) := List.mem_filter.2 ⟨hm, by simp [seen]⟩
  have h := progress_exec h0 hx r
  cases hj : s.job r <;> rw [hj] at h <;> simp only [Progress, hi, Nat.lt_irrefl, if_false] at h
  case idle => simp [h] at this
  case trying => obtain ⟨m, _, h⟩ := h; simp [h, List.mem_replicate] at this
  case got => obtain ⟨m, _, h⟩ := h; simp [h, List.mem_replicate] at this
  case running => exact h.1
  case leaving => obtain ⟨m, _, h⟩ := h; simp at h; simp [h.2, List.mem_replicate] at this
  case ended => generalize es.filter (seen r) = w at *; cases h <;> simp [List.mem_replicate] at this

/-! ## The context of the callback -/

theorem cancelled_exec {c : Conf} {pol : Lock.Policy} {s0 s : State} {es : List Ev} (h0 : Initial s0) (hx : Exec c pol s0 es s) (r : Nat) :
    s.cancelled r = true ↔ .renewal r false ∈ es := by
  induction hx with
  | nil => simp [(h0.2.1 r).2.2.2]
  | snoc hx st ih =>
    rw [List.mem_append, ← ih]
    cases st <;> simp [upd]
    grind

theorem parent_exec {c : Conf} {pol : Lock.Policy} {s0 s : State} {es : List Ev} (hx : Exec c pol s0 es s) (r : Nat) :
    s.parent r = true ↔ s0.parent r = true ∨ .cancel r ∈ es := by
  induction hx with
  | nil => simp
  | snoc hx st ih =>
    rw [List.mem_append, ← or_assoc, ← ih]
    cases st <;> simp [upd]
    grind

/-- **C95** The context given to the callback is done exactly when the caller cancelled its own (before the call or during it), or a renewal was not successful; an unsuccessful renewal
does not cancel the context of the caller, with which `UnLock` is called; and the goroutine that renews the lock ends only then: after a call without unsuccessful renewals it stays for ever. -/
theorem C95_told_iff_partial {c : Conf} {pol : Lock.Policy} {s0 s : State} {es : List Ev} (h0 : Initial s0) (hx : Exec c pol s0 es s) (r : Nat) :
    (Told s r ↔ s0.parent r = true ∨ .cancel r ∈ es ∨ .renewal r false ∈ es) ∧ (s.parent r = true ↔ s0.parent r = true ∨ .cancel r ∈ es) ∧
      (s.helper r = .gone ↔ .renewal r false ∈ es) := by
  have h1 := cancelled_exec h0 hx r
  have h2 := (base_exec hx (base_initial h0)).told r
  have h3 := parent_exec hx r
  exact ⟨by unfold Told; rw [h1, h3]; tauto, h3, h2.trans h1⟩

theorem overtaken_step {c : Conf} {pol : Lock.Policy} {s s' : State} {e : Ev} {r l : Nat} (hb : Base s) (h : (s.lock.pc l).had = some (s.key r))
    (hr : (s.lock.tab (s.key r)).map Lock.Row.locker ≠ some l) (st : Step c pol s e s') :
    s'.key = s.key ∧ (s'.lock.pc l).had = some (s.key r) ∧ (s'.lock.tab (s.key r)).map Lock.Row.locker ≠ some l := by
  have hk : s'.key = s.key := by cases st <;> rfl
  rcases lock_step st with h1 | ⟨e, h1⟩
  · rw [h1]; exact ⟨hk, h, hr⟩
  · exact ⟨hk, Lock.had_step h1 h, Lock.gone_step h1 h hr⟩

theorem cancelled_step {c : Conf} {pol : Lock.Policy} {s s' : State} {e : Ev} {r : Nat} (st : Step c pol s e s') (h : s.cancelled r = true) : s'.cancelled r = true := by
  cases st <;> simp only [upd, h, ite_self]

/-- the callback was called, or never will be. -/
def Job.late : Job → Bool
  | .running _ => true
  | .leaving .. => true
  | .ended _ => true
  | _ => false

/-- the callback of call `r` was called under locker ID `l`. -/
def Begun (s : State) (r l : Nat) : Prop :=
  (∀ l', s.helper r = .waiting l' ∨ s.helper r = .renewing l' → l' = l) ∧ (s.job r).late = true

theorem begun_step {c : Conf} {pol : Lock.Policy} {s s' : State} {e : Ev} {r l : Nat} (st : Step c pol s e s') (h : Begun s r l) : Begun s' r l := by
  obtain ⟨h1, h2⟩ := h
  unfold Begun
  cases st <;> simp only [upd] <;> grind [Job.late]

/-- **C95** When a call has been overtaken while its callback is executed (its row is gone or belongs to another client), it never gets its row back; no renewal of it succeeds any more, and
with the next one that is made the context of the callback is done. -/
theorem C95_overtaken {c : Conf} {pol : Lock.Policy} {s0 s s2 : State} {es es2 : List Ev} {r l : Nat} (h0 : Initial s0) (hx : Exec c pol s0 es s) (hj : s.job r = .running l)
    (hr : (s.lock.tab (s.key r)).map Lock.Row.locker ≠ some l) (hx2 : Exec c pol s es2 s2) :
    (s2.lock.tab (s.key r)).map Lock.Row.locker ≠ some l ∧ .renewal r true ∉ es2 ∧ (∀ ok, .renewal r ok ∈ es2 → Told s2 r) := by
  have hb := base_exec hx (base_initial h0)
  have h1 := hb.running r l hj
  have hown : ∀ l', s.helper r = .waiting l' ∨ s.helper r = .renewing l' → l' = l := by
    intro l' h; rcases h1.2.2 with h2 | h2 | h2 <;> rw [h2] at h <;> simp_all
  have hhad : (s.lock.pc l).had = some (s.key r) := by obtain ⟨u, hu⟩ := h1.2.1; rw [hu]; rfl
  have key : s2.key = s.key ∧ Base s2 ∧ (s2.lock.pc l).had = some (s.key r) ∧ (s2.lock.tab (s.key r)).map Lock.Row.locker ≠ some l ∧
      Begun s2 r l ∧ .renewal r true ∉ es2 ∧ (∀ ok, .renewal r ok ∈ es2 → s2.cancelled r = true) := by
    induction hx2 with
    | nil => exact ⟨rfl, hb, hhad, hr, ⟨hown, by rw [hj]; rfl⟩, by simp, by simp⟩
    | snoc hx2 st ih =>
      rename_i s1 s2 es2 e
      obtain ⟨i1, i2, i3, i4, i56, i7, i8⟩ := ih
      have i5 := i56.1
      have i3' : (s1.lock.pc l).had = some (s1.key r) := by rw [i1]; exact i3
      have i4' : (s1.lock.tab (s1.key r)).map Lock.Row.locker ≠ some l := by rw [i1]; exact i4
      obtain ⟨k1, k2, k3⟩ := overtaken_step i2 i3' i4' st
      rw [i1] at k2 k3
      refine ⟨k1.trans i1, base_step i2 st, k2, k3, begun_step st i56, ?_, ?_⟩
      · intro hm
        rcases List.mem_append.1 hm with hm | hm
        · exact i7 hm
        · simp only [List.mem_singleton] at hm
          subst hm
          generalize he : Ev.renewal r true = e at st
          cases st <;> simp only [reduceCtorEq, Ev.renewal.injEq, and_false, and_true] at he
          rename_i r' l' t hh st1 ho
          subst he
          have := i5 l' (.inr hh)
          subst this
          exact Lock.refused_renewal i3 i4 st1
      · intro ok hm
        rcases List.mem_append.1 hm with hm | hm
        · exact cancelled_step st (i8 ok hm)
        · simp only [List.mem_singleton] at hm
          subst hm
          generalize he : Ev.renewal r ok = e at st
          cases st <;> simp only [reduceCtorEq, Ev.renewal.injEq, and_false, and_true] at he
          · rename_i r' l' t hh st1 ho
            obtain ⟨rfl, rfl⟩ := he
            have := i5 l' (.inr hh)
            subst this
            exact absurd st1 (Lock.refused_renewal i3 i4)
          · obtain ⟨rfl, rfl⟩ := he
            simp [upd]
  exact ⟨key.2.2.2.1, key.2.2.2.2.2.1, fun ok hm => .inl (key.2.2.2.2.2.2 ok hm)⟩

/-! ## The renewing goroutine is left behind -/

/-- **C95** When `Run` returned and the channel of the stopped ticker is empty, the goroutine waits for a tick for ever: whatever happens afterwards, it neither ends nor does anything. -/
theorem C95_goroutine_left {c : Conf} {pol : Lock.Policy} {s s2 : State} {es : List Ev} {r l : Nat} {o : Outcome} (hj : s.job r = .ended o) (hh : s.helper r = .waiting l) (ht : s.tick r = false)
    (hx : Exec c pol s es s2) : s2.helper r = .waiting l ∧ s2.tick r = false ∧ (∀ ok, .renewal r ok ∉ es) := by
  have : s2.job r = .ended o ∧ s2.helper r = .waiting l ∧ s2.tick r = false ∧ (∀ ok, .renewal r ok ∉ es) := by
    induction hx with
    | nil => exact ⟨hj, hh, ht, by simp⟩
    | snoc hx st ih =>
      obtain ⟨h1, h2, h3, h4⟩ := ih
      simp only [List.mem_append, List.mem_singleton, not_or]
      cases st <;> simp only [upd] <;> grind
  exact this.2

/-! ## Cancelled callers -/

/-- **C95** When the caller cancelled its context, `UnLock` fails, the row stays, and `Run` returns nil. -/
theorem C95_cancelled_keeps_row {c : Conf} {pol : Lock.Policy} {s s' : State} {r : Nat} {ok : Bool} (hp : s.parent r = true) (st : Step c pol s (.unlock r ok) s') :
    ok = false ∧ s'.lock.tab = s.lock.tab := by
  generalize he : Ev.unlock r ok = e at st
  cases st <;> simp only [reduceCtorEq, Ev.unlock.injEq] at he
  · obtain ⟨rfl, rfl⟩ := he; rename_i ho; exact absurd rfl (ho hp).2.2.2.1
  · obtain ⟨rfl, rfl⟩ := he; rename_i ho; exact ⟨rfl, (ho hp).1⟩

end Ddd.LockRun
