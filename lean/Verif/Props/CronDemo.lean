import Verif.Props.Cron
import Verif.Props.OnceDemo
/-!
# C82: a concrete engine with cron tasks
-/
set_option linter.unusedVariables false
namespace Ddd.Cron
open Router (Reg)

namespace Demo

/-- type 6 is `TimerEvent`; its JSON -/
def cd : Coding := { timerEvent := 6, enc := fun k e d => 1000 * k + 10 * e + d }

/-- expression 4 means "ten later", expression 9 is malformed -/
def cfg : Timer.Cfg := { parse := fun e => if e = 4 then some (fun t => t + 10) else none, round := id }

/-- closure 5 is a plain task which always fails; the command tasks are those of `Consumer.Demo` -/
def world : Consumer.World := { Consumer.Demo.world with fnRet := fun _ _ => .err 50, decodeErr := fun ty p => if ty = 5 ∧ p = 13 then some 99 else none }

def empty : Sys := { reg := Reg.empty, db := ⟨[], 1⟩ }

/-- a plain task for key 20 -/
def one : Sys := (registerTask world cd cfg 100 (.db 1) empty 20 4 (.func 5)).1

/-- and a command task for key 21 -/
def two : Sys := (registerTask world cd cfg 100 (.db 1) one 21 4 (.command 1)).1

def brief (ds : List Consumer.Done) : List (Router.Call × Router.Ret × Bool) := ds.map fun d => (d.call, d.ret, d.committed)

end Demo

theorem demo_decodes : Decodes Demo.world Demo.cd := by
  refine ⟨by decide, ?_⟩
  intro k e d
  simp [Demo.world, Demo.cd]

theorem demo_handlers (k : Nat) : Demo.two.reg.handlers k = if k = 21 then [handlerOf Demo.world Demo.cd (.command 1)] else if k = 20 then [handlerOf Demo.world Demo.cd (.func 5)] else [] := by
  have h0 := (C82_registration Demo.world Demo.cd Demo.cfg 100 (.db 1) Demo.empty (key := 20) (by decide) 4 (.func 5)).2 rfl
  have h1 := (C82_registration Demo.world Demo.cd Demo.cfg 100 (.db 1) Demo.one (key := 21) (by decide) 4 (.command 1)).2 (by
    exact h0.2.1 21 (by decide))
  by_cases h21 : k = 21
  · subst h21; rw [if_pos rfl]; exact h1.1
  · rw [if_neg h21]
    have := h1.2.1 k h21
    unfold Demo.two
    rw [this]
    by_cases h20 : k = 20
    · subst h20; rw [if_pos rfl]; exact h0.1
    · rw [if_neg h20]; exact h0.2.1 k h20

/-- the hypotheses of C82_poll are met, for both tasks -/
theorem demo_only : Only Demo.world Demo.cd Demo.two.reg 20 (.func 5) ∧ Only Demo.world Demo.cd Demo.two.reg 21 (.command 1) := by
  refine ⟨⟨?_, ?_⟩, ?_, ?_⟩
  · rw [demo_handlers]; rfl
  · intro k hk h hm
    rw [demo_handlers] at hm
    by_cases h21 : k = 21
    · simp [h21] at hm; subst hm; decide
    · simp [h21, hk] at hm
  · rw [demo_handlers]; rfl
  · intro k hk h hm
    rw [demo_handlers] at hm
    by_cases h20 : k = 20
    · simp [h20] at hm; subst hm; decide
    · simp [h20, hk] at hm

theorem demo_typed (k : Nat) : ∀ h ∈ Demo.two.reg.handlers k, Router.WellTyped h.fn := by
  intro h hm
  rw [demo_handlers] at hm
  by_cases h21 : k = 21
  · simp [h21] at hm; subst hm; exact Router.wellTyped_iff.2 ⟨rfl, rfl⟩
  · by_cases h20 : k = 20
    · simp [h20] at hm; subst hm; exact Router.wellTyped_iff.2 ⟨rfl, rfl⟩
    · simp [h20, h21] at hm

example : (Demo.two.db.jobs.map Timer.Job.id).Nodup := by decide

/-- both jobs are due at 110: a poll calls both tasks once; the first one fails, the second one commits its command; both jobs are rescheduled for 120. A poll at 115 calls nothing: the failure is not repeated. The next one calls both again. -/
example :
    Demo.brief (poll Demo.world Demo.cd Demo.cfg 1 110 Demo.two []).2 =
      [(⟨5, .decoded 6 20040⟩, .err 50, false), (⟨1, .raw ⟨21, 21040⟩⟩, .nil, true)] ∧
    (poll Demo.world Demo.cd Demo.cfg 1 110 Demo.two []).1.db.jobs.map (fun j => (j.key, j.next)) = [(20, 120), (21, 120)] ∧
    (poll Demo.world Demo.cd Demo.cfg 1 115 (poll Demo.world Demo.cd Demo.cfg 1 110 Demo.two []).1 []).2.length = 0 ∧
    (poll Demo.world Demo.cd Demo.cfg 1 121 (poll Demo.world Demo.cd Demo.cfg 1 110 Demo.two []).1 []).2.length = 2 := by decide +kernel

/-- a malformed expression: the registration panics, and so does the corrected one afterwards (C82_refused_blocks): the key is lost for this process. -/
example :
    (registerTask Demo.world Demo.cd Demo.cfg 100 (.db 1) Demo.empty 20 9 (.func 5)).2 = .refused .badCron ∧
    (registerTask Demo.world Demo.cd Demo.cfg 100 (.db 1) (registerTask Demo.world Demo.cd Demo.cfg 100 (.db 1) Demo.empty 20 9 (.func 5)).1 20 4 (.func 5)).2 = .taken := by decide +kernel

/-- without a timer -/
example : (registerTask Demo.world Demo.cd Demo.cfg 100 .none Demo.empty 20 4 (.func 5)).2 = .noTimer := by decide +kernel

/-- keys of tasks are event types: an ordinary event of type 21 runs the task's command too. -/
example : Demo.brief (Consumer.deliver Demo.world Demo.two.reg [] ⟨21, 3⟩).2 = [(⟨1, .raw ⟨21, 3⟩⟩, .nil, true)] := by decide +kernel

end Ddd.Cron
