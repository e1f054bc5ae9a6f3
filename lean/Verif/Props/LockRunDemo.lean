import Verif.Props.LockRunPrompt
/-!
# C94, C95: concrete executions
-/
set_option linter.unusedVariables false
set_option linter.unusedSimpArgs false
namespace Ddd.LockRun
open Lock (Pc)

namespace Demo

/-- nobody has called anything; all keys are 0. -/
def start : State := { lock := { now := 0, tab := fun _ => none, pc := fun _ => .start 0 }, job := fun _ => .idle, key := fun _ => 0 }

theorem start_initial : Initial start := ⟨⟨fun l => ⟨rfl, 0, .inl rfl⟩, fun k r h => by simp [start] at h⟩, fun r => ⟨rfl, rfl, rfl, rfl⟩, fun l => rfl⟩

/-- `Prompt`, for one call, computed. -/
def okRun (c : Conf) (d : Nat) (s : State) (r : Nat) : Bool :=
  (match s.job r with
   | .got l => (match s.lock.pc l with | .held _ u => decide (s.lock.now ≤ u + d) | _ => true)
   | .running _ => s.helper r = .gone || decide (s.lock.now ≤ s.due r + d)
   | _ => true) &&
  (match s.helper r with
   | .gone => true
   | .renewing _ => decide (s.lock.now + c.interval ≤ s.due r + d)
   | _ => !s.tick r || decide (s.lock.now + c.interval ≤ s.due r + d))

theorem prompt_of {c : Conf} {d : Nat} {s : State} (h : ∀ r < 2, okRun c d s r = true) (hq : ∀ r, 2 ≤ r → s.job r = .idle ∧ s.helper r = .off ∧ s.tick r = false) : Prompt c d s := by
  intro r
  by_cases hr : r < 2
  · have h1 := h r hr
    unfold okRun at h1
    rw [Bool.and_eq_true] at h1
    obtain ⟨h1, h2⟩ := h1
    refine ⟨?_, ?_, ?_⟩
    · intro l hj k u hp; rw [hj] at h1; simpa [hp] using h1
    · intro l hj hg; rw [hj] at h1; simpa [hg] using h1
    · rintro (⟨ht, hg⟩ | ⟨l, hl⟩)
      · cases hh : s.helper r <;> simp_all
      · rw [hl] at h2; simpa using h2
  · obtain ⟨h1, h2, h3⟩ := hq r (by omega)
    simp [h1, h2, h3]

/-- a prompt execution of at most two calls. -/
structure Walk (c : Conf) (d : Nat) (es : List Ev) (s : State) : Prop where
  exec : PromptExec c d start es s
  rest : ∀ r, 2 ≤ r → s.job r = .idle ∧ s.helper r = .off ∧ s.tick r = false

theorem Walk.step {c : Conf} {d : Nat} {es : List Ev} {e : Ev} {s s' : State} (h : Walk c d es s) (st : Step c (checksWithin d) s e s')
    (h2 : ∀ r, 2 ≤ r → s'.job r = s.job r ∧ s'.helper r = s.helper r ∧ s'.tick r = s.tick r) (h1 : ∀ r < 2, okRun c d s' r = true) : Walk c d (es ++ [e]) s' := by
  have h3 : ∀ r, 2 ≤ r → s'.job r = .idle ∧ s'.helper r = .off ∧ s'.tick r = false := by
    intro r hr; obtain ⟨a, b, e⟩ := h2 r hr; rw [a, b, e]; exact h.rest r hr
  exact ⟨h.exec.snoc st (prompt_of h1 h3), h3⟩

theorem walk_start (c : Conf) (d : Nat) : Walk c d [] start :=
  have h : ∀ r, 2 ≤ r → start.job r = .idle ∧ start.helper r = .off ∧ start.tick r = false := fun r _ => ⟨rfl, rfl, rfl⟩
  ⟨.nil (prompt_of (fun r _ => rfl) h), h⟩

macro "rest" : tactic => `(tactic| (intro r hr; have h0 : r ≠ 0 := by omega
                                    have h1 : r ≠ 1 := by omega
                                    refine ⟨?_, ?_, ?_⟩ <;> simp [upd, h0, h1]))

/-- time to live 10, renewal every 3. -/
def conf : Conf := { ttl := 10, interval := 3 }

end Demo
open LockRun.Demo

/-- **C94** A prompt execution as `C94_no_overlap_partial` speaks of: call 0 obtains key 0, its callback is called, the lock is renewed at time 4; at time 12 call 1 is refused, since that renewal and another one
at time 7 were made. -/
theorem C94_demo : ∃ es s, PromptExec conf 1 start es s ∧ Executes s 0 ∧ ¬ Told s 0 ∧ .renewal 0 true ∈ es ∧ .attempt 1 .locked ∈ es ∧ s.lock.now = 12 := by
  have a0 := walk_start conf 1
  have a1 := a0.step (.call (r := 0) (l := 0) rfl rfl rfl) (by rest) (by decide)
  have a2 := a1.step (.attempt (r := 0) (n := 4) (l := 0) rfl (.read (k := 0) rfl) (by intro h; cases h)) (by rest) (by decide)
  have a3 := a2.step (.attempt (r := 0) (n := 4) (l := 0) rfl (.prepare (k := 0) rfl) (by intro h; cases h)) (by rest) (by decide)
  have a4 := a3.step (.obtained (r := 0) (n := 4) (l := 0) rfl (.create (k := 0) (u := 0) rfl) (by intro h; cases h)) (by rest) (by decide)
  have a5 := a4.step (.begins (r := 0) (l := 0) rfl (by decide)) (by rest) (by decide)
  have a6 := a5.step (.time 3) (by rest) (by decide)
  have a7 := a6.step (.ring (r := 0) (l := 0) rfl (by decide)) (by rest) (by decide)
  have a8 := a7.step (.time 1) (by rest) (by decide)
  have a9 := a8.step (.wake (r := 0) (l := 0) rfl rfl (.renewStart (k := 0) rfl rfl) rfl) (by rest) (by decide)
  have a10 := a9.step (.renewed (r := 0) (l := 0) rfl (.renew (l := 0) (k := 0) (u' := 4) rfl rfl (fun _ _ _ => trivial)) (by intro h; cases h)) (by rest) (by decide)
  have a11 := a10.step (.time 2) (by rest) (by decide)
  have a12 := a11.step (.ring (r := 0) (l := 0) rfl (by decide)) (by rest) (by decide)
  have a13 := a12.step (.time 1) (by rest) (by decide)
  have a14 := a13.step (.wake (r := 0) (l := 0) rfl rfl (.renewStart (k := 0) rfl rfl) rfl) (by rest) (by decide)
  have a15 := a14.step (.renewed (r := 0) (l := 0) rfl (.renew (l := 0) (k := 0) (u' := 7) rfl rfl (fun _ _ _ => trivial)) (by intro h; cases h)) (by rest) (by decide)
  have a16 := a15.step (.time 2) (by rest) (by decide)
  have a17 := a16.step (.ring (r := 0) (l := 0) rfl (by decide)) (by rest) (by decide)
  have a18 := a17.step (.wake (r := 0) (l := 0) rfl rfl (.renewStart (k := 0) rfl rfl) rfl) (by rest) (by decide)
  have a19 := a18.step (.renewed (r := 0) (l := 0) rfl (.renew (l := 0) (k := 0) (u' := 9) rfl rfl (fun _ _ _ => trivial)) (by intro h; cases h)) (by rest) (by decide)
  have a20 := a19.step (.time 3) (by rest) (by decide)
  have a21 := a20.step (.call (r := 1) (l := 1) rfl rfl rfl) (by rest) (by decide)
  have a22 := a21.step (.attempt (r := 1) (n := 4) (l := 1) rfl (.read (k := 0) rfl) (by intro h; cases h)) (by rest) (by decide)
  have a23 := a22.step (.again (r := 1) (n := 3) (l := 1) (l' := 2) rfl (.check (l := 1) (k := 0) (r := ⟨0, 9⟩) (tr := 12) rfl (by constructor <;> decide)) (by intro h; cases h) rfl rfl) (by rest) (by decide)
  refine ⟨_, _, a23.exec, ⟨0, rfl⟩, ?_, by simp, by simp, rfl⟩
  rintro (h | h) <;> exact absurd h (by decide)

/-- **C94** `NewDBLock` accepts a time to live that is equal to the renew interval (the comment says it has to be greater): then the first renewal is due when the lease has run out. With no delays
at all, the callbacks of two calls are executed for the same key at the same time, and neither is told. -/
theorem C94_equal_interval : ∃ es s, newDBLock { ttl := 10, interval := 10 } = some { ttl := 10, interval := 10 } ∧
    PromptExec { ttl := 10, interval := 10 } 0 start es s ∧ Executes s 0 ∧ Executes s 1 ∧ s.key 0 = s.key 1 ∧ Overtaken s 0 ∧ ¬ Told s 0 ∧ ¬ Told s 1 := by
  have a0 := walk_start { ttl := 10, interval := 10 } 0
  have a1 := a0.step (.call (r := 0) (l := 0) rfl rfl rfl) (by rest) (by decide)
  have a2 := a1.step (.attempt (r := 0) (n := 4) (l := 0) rfl (.read (k := 0) rfl) (by intro h; cases h)) (by rest) (by decide)
  have a3 := a2.step (.attempt (r := 0) (n := 4) (l := 0) rfl (.prepare (k := 0) rfl) (by intro h; cases h)) (by rest) (by decide)
  have a4 := a3.step (.obtained (r := 0) (n := 4) (l := 0) rfl (.create (k := 0) (u := 0) rfl) (by intro h; cases h)) (by rest) (by decide)
  have a5 := a4.step (.begins (r := 0) (l := 0) rfl (by decide)) (by rest) (by decide)
  have a6 := a5.step (.time 10) (by rest) (by decide)
  have a7 := a6.step (.call (r := 1) (l := 1) rfl rfl rfl) (by rest) (by decide)
  have a8 := a7.step (.attempt (r := 1) (n := 4) (l := 1) rfl (.read (k := 0) rfl) (by intro h; cases h)) (by rest) (by decide)
  have a9 := a8.step (.attempt (r := 1) (n := 4) (l := 1) rfl (.check (l := 1) (k := 0) (r := ⟨0, 0⟩) (tr := 10) rfl (by constructor <;> decide)) (by intro h; cases h)) (by rest) (by decide)
  have a10 := a9.step (.obtained (r := 1) (n := 4) (l := 1) rfl (.steal (l := 1) (k := 0) (v := 0) (u := 10) rfl) (by intro h; cases h)) (by rest) (by decide)
  have a11 := a10.step (.begins (r := 1) (l := 1) rfl (by decide)) (by rest) (by decide)
  refine ⟨_, _, rfl, a11.exec, ⟨0, rfl⟩, ⟨1, rfl⟩, rfl, ⟨0, rfl, by decide⟩, ?_, ?_⟩ <;> rintro (h | h) <;> exact absurd h (by decide)

/-- **C95** After the caller cancelled its context `Run` returns nil and the key stays locked: another call is refused although nobody executes a callback. The goroutine of the first call waits for ever
(`C95_goroutine_left`). -/
theorem C95_cancelled_locked : ∃ es s l, PromptExec conf 1 start es s ∧ s.job 0 = .ended .done ∧ s.job 1 = .trying 3 2 ∧ .attempt 1 .locked ∈ es ∧ .unlock 0 false ∈ es ∧ .renewal 0 false ∉ es ∧
    s.helper 0 = .waiting l ∧ s.tick 0 = false := by
  have a0 := walk_start conf 1
  have a1 := a0.step (.call (r := 0) (l := 0) rfl rfl rfl) (by rest) (by decide)
  have a2 := a1.step (.attempt (r := 0) (n := 4) (l := 0) rfl (.read (k := 0) rfl) (by intro h; cases h)) (by rest) (by decide)
  have a3 := a2.step (.attempt (r := 0) (n := 4) (l := 0) rfl (.prepare (k := 0) rfl) (by intro h; cases h)) (by rest) (by decide)
  have a4 := a3.step (.obtained (r := 0) (n := 4) (l := 0) rfl (.create (k := 0) (u := 0) rfl) (by intro h; cases h)) (by rest) (by decide)
  have a5 := a4.step (.begins (r := 0) (l := 0) rfl (by decide)) (by rest) (by decide)
  have a6 := a5.step (.cancel 0) (by rest) (by decide)
  have a7 := a6.step (.finishes (r := 0) (l := 0) false rfl) (by rest) (by decide)
  have a8 := a7.step (.notReleased (r := 0) (l := 0) (panics := false) (e := .unlockFailed 0) rfl (.unlockErr (k := 0) (u := 0) _ rfl (.inl rfl)) (.inr rfl)
    (by intro _; exact ⟨rfl, by simp, by simp, by simp, by simp, by simp⟩)) (by rest) (by decide)
  have a9 := a8.step (.call (r := 1) (l := 1) rfl rfl rfl) (by rest) (by decide)
  have a10 := a9.step (.attempt (r := 1) (n := 4) (l := 1) rfl (.read (k := 0) rfl) (by intro h; cases h)) (by rest) (by decide)
  have a11 := a10.step (.again (r := 1) (n := 3) (l := 1) (l' := 2) rfl (.check (l := 1) (k := 0) (r := ⟨0, 0⟩) (tr := 0) rfl (by constructor <;> decide)) (by intro h; cases h) rfl rfl) (by rest) (by decide)
  exact ⟨_, _, 0, a11.exec, rfl, rfl, by simp, by simp, by simp, rfl, rfl⟩

theorem exec_of_prompt {c : Conf} {d : Nat} {s0 s : State} {es : List Ev} (h : PromptExec c d s0 es s) : Exec c (checksWithin d) s0 es s := by
  induction h with
  | nil _ => exact .nil _
  | snoc _ st _ ih => exact .snoc ih st

/-- the story of call 0 in that execution is complete. -/
example : ∃ es s, Exec conf (checksWithin 1) start es s ∧ Story conf.attempts 0 (es.filter (seen 0)) .done := by
  obtain ⟨es, s, l, h1, h2, _⟩ := C95_cancelled_locked
  exact ⟨es, s, exec_of_prompt h1, (C93_story (by decide) start_initial (exec_of_prompt h1) 0).2 _ h2⟩

end Ddd.LockRun
