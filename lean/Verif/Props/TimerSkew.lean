import Verif.Props.TimerDemo
/-!
# C118: hosts whose clocks differ, DB timer

In `Model/Timer.lean` a step uses the time that the clock of its instance showed: any time up to `Cfg.ahead` after the true time, and (unless `Cfg.exact`) any amount before it. Every theorem about reachable states is for all values
of both; the ones below spell out what depends on them.
-/
set_option linter.unusedVariables false
namespace Ddd.Timer

/-- **C118 (partial)** When a callback is called, the true time is at most `ahead` before the time of the job: the clocks of all other instances, and how far behind they are, do not matter. -/
theorem C118_timer_early_partial {c : Cfg} {s : State} (h : Reachable c s) {l1 l2 : List Log} {svc : Nat} {j : Job} {t : Nat} (hl : s.log = l1 ++ .called svc j t :: l2) :
    ∃ a, Reachable c a ∧ a.log = l2 ∧ j ∈ a.db.jobs ∧ j.next ≤ a.now + c.ahead := by
  obtain ⟨_, _, h1, _, a, ha, h2, h3, _, h4⟩ := C52_only_due h hl
  exact ⟨a, ha, h2, h4, by omega⟩

/-- **C118** Whatever the clocks show, the times of the schedule for which a job is called go forward, and no time is called again once its call was saved. -/
theorem C118_timer_forward {c : Cfg} (hsat : Satisfiable c) {s : State} (h : Reachable c s) {l1 l2 l3 : List Log} {svc svc' : Nat} {j j' : Job} {t t' : Nat}
    (hl : s.log = l1 ++ .called svc' j' t' :: (l2 ++ .called svc j t :: l3)) (hid : j'.id = j.id) :
    j.next ≤ j'.next ∧ ((∃ x ∈ l2, x.isSaved j.id = true) → j.next < j'.next) := by
  obtain ⟨h1, h2⟩ := C54_increasing hsat h hl hid
  exact ⟨h1, fun ⟨x, hx, hs⟩ => (h2 x hx hs).1⟩

namespace SkewDemo

/-- the clocks of some instances are `a` ahead -/
def fast (a : Nat) : Cfg := { tidy with ahead := a, exact := false }

theorem fast_satisfiable (a : Nat) : Satisfiable (fast a) := tidy_satisfiable

/-- the service asks at time 0 for a call at time `T` -/
def want (T : Nat) : Job := ⟨0, 1, 6, 0, T, .toRun, 200⟩

/-- its row -/
def row (T : Nat) : Job := ⟨1, 1, 6, 0, T, .toRun, 200⟩

/-- the request is stored; then `d` passes -/
def asked (T d : Nat) : State := ⟨0 + d, ⟨[row T], 2⟩, [], [], [], [.created (row T), .asked 1 (.once 6 T 200) 0]⟩

theorem asked_reach (a T d : Nat) : Reachable (fast a) (asked T d) := by
  have h1 : Reachable (fast a) ⟨0, ⟨[], 1⟩, [want T], [], [], [.asked 1 (.once 6 T 200) 0]⟩ := .step .init (.regFind State.init 1 (.once 6 T 200) (want T) 0 (Nat.zero_le _) (by simp [Req.job, want]) (by simp [finds, State.init]))
  have hst := Step.regInsert (c := fast a) ⟨0, ⟨[], 1⟩, [want T], [], [], [.asked 1 (.once 6 T 200) 0]⟩ (want T) ⟨[row T], 2⟩ (by simp) rfl
  have h2 : Reachable (fast a) ⟨0, ⟨[row T], 2⟩, [], [], [], [.created (row T), .asked 1 (.once 6 T 200) 0]⟩ := by
    have := Reachable.step h1 hst
    simp only [List.erase_cons_head] at this
    exact this
  exact .step h2 (.tick _ d)

end SkewDemo
open SkewDemo

/-- **C118** The bound is sharp, for every amount `a` and every time `T` not before it: an instance whose clock is `a` ahead makes the call asked for at `T` when it is only `T - a`. -/
theorem C118_timer_sharp (a T : Nat) (hT : a ≤ T) : ∃ s, Reachable (fast a) s ∧ s.log = [.called 1 (row T) T, .created (row T), .asked 1 (.once 6 T 200) 0] ∧ s.now + a = T := by
  have hd : due 1 T (row T) = true := due_iff.mpr ⟨rfl, Nat.le_refl _, rfl⟩
  have ha : T ≤ (asked T (T - a)).now + (fast a).ahead := by show T ≤ 0 + (T - a) + a; omega
  have h1 := Reachable.step (asked_reach a T (T - a)) (.select _ 1 T ha)
  have hsel : ((asked T (T - a)).db.jobs.filter (due 1 T)).map Job.id = [1] := by
    simp only [asked, List.filter_cons, hd, if_true, List.filter_nil]; rfl
  rw [hsel] at h1
  have h2 := Reachable.step h1 (.call _ 1 1 [] (row T) List.mem_cons_self (by simp [asked]) rfl T ⟨ha, fun h => by cases h⟩ hd (by simp [State.locked, asked]))
  exact ⟨_, h2, rfl, by show 0 + (T - a) + a = T; omega⟩

/-- the hypotheses of `C118_timer_forward` are met, by a history with two saved calls, where clocks may be 5 ahead -/
example : Satisfiable (fast 5) ∧ Reachable (fast 5) (after (fast 5) [.reg 1 (.cron 5 1 100), .ins, .tick 12, .select 1, .call, .finish, .tick 8, .select 1, .call]) ∧
    ∃ l3, (after (fast 5) [.reg 1 (.cron 5 1 100), .ins, .tick 12, .select 1, .call, .finish, .tick 8, .select 1, .call]).log =
      [] ++ .called 1 ⟨1, 1, 5, 1, 20, .toRun, 100⟩ 20 :: ([.returned 1 ⟨1, 1, 5, 1, 10, .toRun, 100⟩ 12 true] ++ .called 1 ⟨1, 1, 5, 1, 10, .toRun, 100⟩ 12 :: l3) :=
  ⟨fast_satisfiable 5, after_reach _ _, [.created ⟨1, 1, 5, 1, 10, .toRun, 100⟩, .asked 1 (.cron 5 1 100) 0], by decide +kernel⟩

end Ddd.Timer
