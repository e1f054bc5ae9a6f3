import Verif.Props.Timer
/-!
# DB timer: histories that show the hypotheses are met, and counterexamples
-/
set_option linter.unusedVariables false
namespace Ddd.Timer

instance (s : State) (id : Nat) : Decidable (s.locked id) := by unfold State.locked; infer_instance

/-- Something that happens; the steps of the model with the choices made. -/
inductive Act where
  | tick (d : Nat) | reg (svc : Nat) (r : Req) | ins | drop | cancel (key : Nat) | select (svc : Nat) | call | skip | finish | lost | crash

/-- what an `Act` does; always the latest registration, loop or call -/
def act (c : Cfg) (s : State) : Act → Option State
  | .tick d => some { s with now := s.now + d }
  | .reg svc r =>
    if (r.job c svc s.now).2 = .ok ∧ finds s.db svc r.key = false then some { s with regs := (r.job c svc s.now).1 :: s.regs, log := .asked svc r s.now :: s.log } else none
  | .ins =>
    match s.regs with
    | [] => none
    | j :: js => if (insert c s.db j).2 = .ok then some { s with regs := (j :: js).erase j, db := (insert c s.db j).1, log := .created { j.stored c with id := s.db.nextId } :: s.log } else none
  | .drop =>
    match s.regs with
    | [] => none
    | j :: js => some { s with regs := (j :: js).erase j }
  | .cancel key =>
    if (Timer.cancel s.db key).2 = .ok ∧ ∀ j ∈ s.db.jobs, j.key = key → ¬ s.locked j.id then
      some { s with db := (Timer.cancel s.db key).1, log := (s.db.jobs.filter fun j => decide (j.key = key)).map .deleted ++ s.log } else none
  | .select svc => some { s with loops := (svc, ((s.db.jobs.filter (due svc s.now)).map Job.id)) :: s.loops }
  | .call =>
    match s.loops with
    | (svc, id :: rest) :: ls =>
      match s.db.jobs.find? fun j => j.id == id with
      | some j => if due svc s.now j = true ∧ ¬ s.locked id then
          some { s with loops := (svc, rest) :: ((svc, id :: rest) :: ls).erase (svc, id :: rest), busy := ⟨svc, j, s.now⟩ :: s.busy, log := .called svc j s.now :: s.log } else none
      | none => none
    | _ => none
  | .skip =>
    match s.loops with
    | (svc, id :: rest) :: ls => some { s with loops := (svc, rest) :: ((svc, id :: rest) :: ls).erase (svc, id :: rest) }
    | _ => none
  | .finish =>
    match s.busy with
    | [] => none
    | r :: rs => if ¬ r.time ≤ s.now then none else some { s with busy := (r :: rs).erase r, db := save s.db ((r.j.afterCall c s.now).stored c), log := .returned r.svc r.j s.now true :: s.log }
  | .lost =>
    match s.busy with
    | [] => none
    | r :: rs => if ¬ r.time ≤ s.now then none else some { s with busy := (r :: rs).erase r, log := .returned r.svc r.j s.now false :: s.log }
  | .crash =>
    match s.busy with
    | [] => none
    | r :: rs => some { s with busy := (r :: rs).erase r, log := .died r.svc r.j s.now :: s.log }

theorem act_step {c : Cfg} {s s' : State} (a : Act) (h : act c s a = some s') : Step c s s' := by
  cases a with
  | tick d => simp only [act, Option.some.injEq] at h; subst h; exact .tick s d
  | reg svc r =>
    simp only [act] at h
    split at h
    · rename_i hc
      simp only [Option.some.injEq] at h; subst h
      exact .regFind s svc r _ _ (Nat.le_add_right _ _) (Prod.ext rfl hc.1) hc.2
    · cases h
  | ins =>
    simp only [act] at h
    split at h
    · cases h
    · rename_i j js hr
      split at h
      · rename_i hc
        simp only [Option.some.injEq] at h; subst h
        rw [← hr]
        exact .regInsert s j _ (by rw [hr]; exact List.mem_cons_self) (Prod.ext rfl hc)
      · cases h
  | drop =>
    simp only [act] at h
    split at h
    · cases h
    · rename_i j js hr
      simp only [Option.some.injEq] at h; subst h
      rw [← hr]
      exact .regDrop s j
  | cancel key =>
    simp only [act] at h
    split at h
    · rename_i hc
      simp only [Option.some.injEq] at h; subst h
      exact .cancel s key _ (Prod.ext rfl hc.1) hc.2
    · cases h
  | select svc => simp only [act, Option.some.injEq] at h; subst h; exact .select s svc _ (Nat.le_add_right _ _)
  | call =>
    simp only [act] at h
    split at h
    · rename_i svc id rest ls hl
      split at h
      · rename_i j hj
        split at h
        · rename_i hc
          simp only [Option.some.injEq] at h; subst h
          rw [← hl]
          have := List.find?_some hj
          exact .call s svc id rest j (by rw [hl]; exact List.mem_cons_self) (List.mem_of_find?_eq_some hj) (by simpa using this) s.now ⟨Nat.le_add_right _ _, fun _ => rfl⟩ hc.1 hc.2
        · cases h
      · cases h
    · cases h
  | skip =>
    simp only [act] at h
    split at h
    · rename_i svc id rest ls hl
      simp only [Option.some.injEq] at h; subst h
      rw [← hl]
      exact .skip s svc id rest (by rw [hl]; exact List.mem_cons_self)
    · cases h
  | finish =>
    simp only [act] at h
    split at h
    · cases h
    · rename_i r rs hr
      split at h
      · cases h
      rename_i hn
      simp only [Option.some.injEq] at h; subst h
      rw [← hr]
      exact .finish s r (by rw [hr]; exact List.mem_cons_self) _ ⟨not_not.mp hn, Nat.le_add_right _ _⟩
  | lost =>
    simp only [act] at h
    split at h
    · cases h
    · rename_i r rs hr
      split at h
      · cases h
      rename_i hn
      simp only [Option.some.injEq] at h; subst h
      rw [← hr]
      exact .finishLost s r (by rw [hr]; exact List.mem_cons_self) _ ⟨not_not.mp hn, Nat.le_add_right _ _⟩
  | crash =>
    simp only [act] at h
    split at h
    · cases h
    · rename_i r rs hr
      simp only [Option.some.injEq] at h; subst h
      rw [← hr]
      exact .crash s r (by rw [hr]; exact List.mem_cons_self)

def acts (c : Cfg) (s : State) : List Act → Option State
  | [] => some s
  | a :: as => (act c s a).bind fun s' => acts c s' as

theorem acts_reach {c : Cfg} (as : List Act) : ∀ {s s' : State}, Reachable c s → acts c s as = some s' → Reachable c s' := by
  induction as with
  | nil => intro s s' h he; simp only [acts, Option.some.injEq] at he; exact he ▸ h
  | cons a as ih =>
    intro s s' h he
    simp only [acts] at he
    cases ha : act c s a with
    | none => rw [ha] at he; cases he
    | some s1 => rw [ha] at he; exact ih (.step h (act_step a ha)) he

/-- what a list of happenings leaves -/
def after (c : Cfg) (as : List Act) : State := (acts c .init as).getD .init

theorem after_reach (c : Cfg) (as : List Act) : Reachable c (after c as) := by
  unfold after
  cases h : acts c .init as with
  | none => exact .init
  | some s => exact acts_reach as .init h

/-- Expression 1: every tenth unit; 2: never satisfied (such as 30 February; robfig's `Next` then returns the zero time); all others are invalid. -/
def demo : Cfg where
  parse e := if e = 1 then some (fun t => (t / 10 + 1) * 10) else if e = 2 then some (fun _ => 0) else none
  round t := t

/-- the same without the unsatisfiable expression -/
def tidy : Cfg where
  parse e := if e = 1 then some (fun t => (t / 10 + 1) * 10) else none
  round t := t

theorem tidy_satisfiable : Satisfiable tidy := by
  intro e f h t
  simp only [tidy] at h
  split at h
  · simp only [Option.some.injEq] at h; subst h; show t < (t / 10 + 1) * 10; omega
  · cases h

theorem tidy_schedules : Schedules (fun t => (t / 10 + 1) * 10) (fun t => t % 10 = 0) := by
  intro t
  simp only
  refine ⟨by omega, by omega, ?_⟩
  intro u h1 h2
  omega

/-- Service 1 has a cron job (key 5) and a one-shot job (key 6); two instances select both before either calls; the first call of the cron job dies, the second instance calls it again; the third poll comes after times 20 and 30 were missed. -/
def story : State := after tidy [.reg 1 (.cron 5 1 100), .ins, .reg 1 (.once 6 4 200), .ins, .tick 12, .select 1, .select 1, .call, .crash, .skip,
  .tick 1, .select 1, .call, .tick 2, .finish, .call, .finish, .tick 20, .select 1, .call, .finish, .tick 0]

/-- Hypotheses of the C52, C53, C54 and C63 theorems are met: the log of `story`. -/
theorem story_log : story.log =
    [.returned 1 ⟨1, 1, 5, 1, 20, .toRun, 100⟩ 35 true, .called 1 ⟨1, 1, 5, 1, 20, .toRun, 100⟩ 35, .returned 1 ⟨2, 1, 6, 0, 4, .toRun, 200⟩ 15 true, .called 1 ⟨2, 1, 6, 0, 4, .toRun, 200⟩ 15,
     .returned 1 ⟨1, 1, 5, 1, 10, .toRun, 100⟩ 15 true, .called 1 ⟨1, 1, 5, 1, 10, .toRun, 100⟩ 13, .died 1 ⟨1, 1, 5, 1, 10, .toRun, 100⟩ 12, .called 1 ⟨1, 1, 5, 1, 10, .toRun, 100⟩ 12,
     .created ⟨2, 1, 6, 0, 4, .toRun, 200⟩, .asked 1 (.once 6 4 200) 0, .created ⟨1, 1, 5, 1, 10, .toRun, 100⟩, .asked 1 (.cron 5 1 100) 0] := by decide +kernel

/-- the rows it leaves -/
theorem story_rows : story.db.jobs = [⟨1, 1, 5, 1, 40, .toRun, 100⟩, ⟨2, 1, 6, 0, 4, .finished, 200⟩] := by decide +kernel

theorem story_reach : Reachable tidy story := after_reach _ _

/-- `C54_increasing` applied to the calls at 12 and at 35: 10 < 20. -/
example : (10 : Nat) < 20 :=
  ((C54_increasing tidy_satisfiable story_reach (l1 := [_]) (svc' := 1) (j' := ⟨1, 1, 5, 1, 20, .toRun, 100⟩) (t' := 35)
    (l2 := [_, _, .returned 1 ⟨1, 1, 5, 1, 10, .toRun, 100⟩ 15 true, _, _]) (svc := 1) (j := ⟨1, 1, 5, 1, 10, .toRun, 100⟩) (t := 12) (by rw [story_log]; rfl) rfl).2
      (.returned 1 ⟨1, 1, 5, 1, 10, .toRun, 100⟩ 15 true) (by simp) rfl).1

/-- `C53_stays` and `C53_again` have something to say: after the crash. -/
example : (after tidy [.reg 1 (.once 6 4 200), .ins, .tick 12, .select 1, .call, .crash]).log = [.died 1 ⟨1, 1, 6, 0, 4, .toRun, 200⟩ 12] ++ .called 1 ⟨1, 1, 6, 0, 4, .toRun, 200⟩ 12 ::
    [.created ⟨1, 1, 6, 0, 4, .toRun, 200⟩, .asked 1 (.once 6 4 200) 0] := by decide +kernel

example : (∀ x ∈ ([.died 1 ⟨1, 1, 6, 0, 4, .toRun, 200⟩ 12] : List Log), x.isSaved 1 = false ∧ x.isDeleted 1 = false) := by decide

/-- `C55_existing_partial`, `C55_new`, `C55_other_service` meet their hypotheses in the table of `story`. -/
example : register tidy story.db 1 35 (.once 5 50 1) = (story.db, .ok) :=
  C55_existing_partial tidy story.db 1 35 (.once 5 50 1) ⟨1, 1, 5, 1, 40, .toRun, 100⟩ (by rw [story_rows]; simp) rfl rfl (by simp [Refused])

example : (register tidy story.db 1 35 (.cron 7 1 3)).1.jobs = story.db.jobs ++ [⟨3, 1, 7, 1, 40, .toRun, 3⟩] := by decide +kernel

example : register tidy story.db 2 35 (.once 5 50 1) = (story.db, .duplicate) := by decide +kernel

/-- A one-shot key is spent: registering it again for a later time succeeds and does nothing (an instance of `C55_existing_partial`), the job never fires again (`C53_once`). -/
theorem spent_key : register tidy story.db 1 35 (.once 6 50 9) = (story.db, .ok) ∧ ∀ j ∈ story.db.jobs, j.key = 6 → j.status = .finished := by
  rw [story_rows]; constructor <;> decide +kernel

/-! ## Counterexamples -/

/-- C56 is false: service 2 cancels the job of service 1. -/
theorem cancel_other_service : ∃ db : DB, ∃ j ∈ db.jobs, j.service = 1 ∧ j ∉ (cancel db 5).1.jobs := ⟨story.db, ⟨1, 1, 5, 1, 40, .toRun, 100⟩, by rw [story_rows]; simp, rfl, by decide +kernel⟩

/-- C54 is false without `Satisfiable`: an unsatisfiable expression is accepted, and the job is called at once and at every poll. -/
def always : State := after demo [.reg 1 (.cron 5 2 100), .ins, .select 1, .call, .finish, .select 1, .call, .finish]

theorem unsatisfiable_fires_always : always.log = [.returned 1 ⟨1, 1, 5, 2, 0, .toRun, 100⟩ 0 true, .called 1 ⟨1, 1, 5, 2, 0, .toRun, 100⟩ 0, .returned 1 ⟨1, 1, 5, 2, 0, .toRun, 100⟩ 0 true,
    .called 1 ⟨1, 1, 5, 2, 0, .toRun, 100⟩ 0, .created ⟨1, 1, 5, 2, 0, .toRun, 100⟩, .asked 1 (.cron 5 2 100) 0] := by decide +kernel

/-- A `RunCron` with an empty expression is not refused: the job is called once, at once. -/
theorem empty_cron_fires_once : (after demo [.tick 3, .reg 1 (.cron 5 0 100), .ins, .select 1, .call, .finish]).db.jobs = [⟨1, 1, 5, 0, 0, .finished, 100⟩] ∧
    Log.called 1 ⟨1, 1, 5, 0, 0, .toRun, 100⟩ 3 ∈ (after demo [.tick 3, .reg 1 (.cron 5 0 100), .ins, .select 1, .call, .finish]).log := by decide +kernel

/-- With an empty key a service that has any job gets success and no job (so `C55_new` needs a nonempty key). -/
theorem empty_key_ignored : register tidy story.db 1 35 (.once 0 50 9) = (story.db, .ok) ∧ ∀ j ∈ story.db.jobs, j.key ≠ 0 := by rw [story_rows]; constructor <;> decide +kernel

/-- Two registrations of the same new key at the same time: both find nothing, one gets an error although the key is its own (so the first claim of C55 does not hold for overlapping calls). -/
theorem register_race : (insert tidy (after tidy [.reg 1 (.once 6 4 200), .reg 1 (.once 6 4 200), .ins]).db ⟨0, 1, 6, 0, 4, .toRun, 200⟩).2 = .duplicate ∧
    (after tidy [.reg 1 (.once 6 4 200), .reg 1 (.once 6 4 200), .ins]).regs = [⟨0, 1, 6, 0, 4, .toRun, 200⟩] := by decide +kernel

/-- The column holds whole seconds: with a `round` that rounds to the nearest, a `RunOnce` at 14 (1.4 s) fires at 10. -/
theorem rounding_fires_early : Log.called 1 ⟨1, 1, 6, 0, 10, .toRun, 200⟩ 12 ∈
    (after { parse := fun _ => none, round := fun t => (t + 5) / 10 * 10 } [.reg 1 (.once 6 14 200), .ins, .tick 12, .select 1, .call]).log := by decide +kernel

end Ddd.Timer
