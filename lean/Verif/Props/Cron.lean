import Verif.Spec.Cron
import Verif.Props.Consumer
import Verif.Props.Timer
/-!
# C82: cron tasks of an engine
-/
set_option linter.unusedVariables false
set_option linter.unusedSimpArgs false
namespace Ddd.Cron
open Router (Reg)

theorem addTask_eq (w : Consumer.World) (cd : Coding) (r : Reg) (key : Nat) (task : Task) :
    addTask w cd r key task = some { r with handlers := fun x => if x = key then r.handlers key ++ [handlerOf w cd task] else r.handlers x } := by
  cases task with
  | func i => simp [addTask, Router.registerHandler, funcFn, handlerOf]
  | command i => simp [addTask, ctorFn, Consumer.engineRegister, Router.registerHandler, Consumer.closureFn, handlerOf]

/-- **C82** Registering a task for a key: it panics without any change if the key has a handler. Otherwise exactly one handler is added, for this key; and it returns exactly if the engine's timer accepts the job; then the job is the one the service
had before, unchanged, or a new one with the given expression; else it panics, the timer's table is unchanged, but the handler stays. -/
theorem C82_registration (w : Consumer.World) (cd : Coding) (c : Timer.Cfg) (now : Nat) (t : TimerOf) (s : Sys) {key : Nat} (h0 : key ≠ 0) (cron : Nat) (task : Task) :
    (s.reg.handlers key ≠ [] → registerTask w cd c now t s key cron task = (s, .taken)) ∧
    (s.reg.handlers key = [] →
      (registerTask w cd c now t s key cron task).1.reg.handlers key = [handlerOf w cd task] ∧
      (∀ k, k ≠ key → (registerTask w cd c now t s key cron task).1.reg.handlers k = s.reg.handlers k) ∧
      ((registerTask w cd c now t s key cron task).2 = .ok ↔ ∃ svc, t = .db svc ∧ Accepts c s.db svc key cron) ∧
      ((registerTask w cd c now t s key cron task).2 ≠ .ok → (registerTask w cd c now t s key cron task).1.db = s.db) ∧
      ((registerTask w cd c now t s key cron task).2 = .ok → ∃ svc, t = .db svc ∧
        (((∃ j ∈ s.db.jobs, j.service = svc ∧ j.key = key) ∧ (registerTask w cd c now t s key cron task).1.db = s.db) ∨
         ((∀ j ∈ s.db.jobs, j.key ≠ key) ∧ ∃ j, (registerTask w cd c now t s key cron task).1.db.jobs = s.db.jobs ++ [j] ∧
            j.service = svc ∧ j.key = key ∧ j.cron = cron ∧ j.status = .toRun ∧ j.data = 0 ∧
            (cron ≠ 0 → ∃ f, c.parse cron = some f ∧ j.next = c.round (f now)))))) := by
  constructor
  · intro h
    unfold registerTask taken
    cases hh : s.reg.handlers key with
    | nil => exact absurd hh h
    | cons a l => simp
  · intro h
    have heq : registerTask w cd c now t s key cron task =
        (⟨{ s.reg with handlers := fun x => if x = key then s.reg.handlers key ++ [handlerOf w cd task] else s.reg.handlers x }, (runCron c now t s.db key cron).1⟩, (runCron c now t s.db key cron).2) := by
      unfold registerTask taken
      simp [h, addTask_eq]
    rw [heq]
    refine ⟨by simp [h], fun k hk => by simp [hk], ?_⟩
    simp only
    unfold runCron
    cases t with
    | none => simp
    | db svc =>
      simp only [TimerOf.db.injEq, exists_eq_left']
      by_cases hr : Timer.Refused c now (.cron key cron 0)
      · obtain ⟨h1, h2⟩ := Timer.C55_refused c s.db svc now _ hr
        simp only at h2
        have : Timer.register c s.db svc now (.cron key cron 0) = (s.db, .badCron) := Prod.ext h1 h2
        rw [this]
        refine ⟨⟨by simp, ?_⟩, by simp, by simp⟩
        rintro ⟨hp, -⟩
        simp only [Timer.Refused] at hr
        rcases hp with hp | ⟨f, hp⟩
        · exact absurd hp hr.1
        · rw [hr.2] at hp; cases hp
      · have hp : cron = 0 ∨ ∃ f, c.parse cron = some f := by
          by_cases hc : cron = 0
          · exact .inl hc
          · cases hf : c.parse cron with
            | none => exact absurd ⟨hc, hf⟩ hr
            | some f => exact .inr ⟨f, rfl⟩
        by_cases he : ∃ j ∈ s.db.jobs, j.service = svc ∧ j.key = key
        · obtain ⟨j, hj, hs, hk⟩ := he
          rw [Timer.C55_existing_partial c s.db svc now (.cron key cron 0) j hj hs hk hr]
          refine ⟨⟨fun _ => ⟨hp, .inl ⟨j, hj, hs, hk⟩⟩, fun _ => rfl⟩, by simp, fun _ => .inl ⟨⟨j, hj, hs, hk⟩, rfl⟩⟩
        · by_cases hn : ∀ j ∈ s.db.jobs, j.key ≠ key
          · obtain ⟨j, n, h1, h2, h3, h4, h5, h6, h7, h8⟩ := Timer.C55_new c s.db svc now (.cron key cron 0) h0 hn hr
            rw [h1]
            simp only [Timer.FirstTime] at h6
            refine ⟨⟨fun _ => ⟨hp, .inr hn⟩, fun _ => rfl⟩, by simp, fun _ => .inr ⟨hn, j, rfl, h3, h4, h8.1, h5, h8.2, fun hc => ?_⟩⟩
            rcases h6 with ⟨h6, -⟩ | ⟨-, f, hf, rfl⟩
            · exact absurd h6 hc
            · exact ⟨f, hf, h7⟩
          · push Not at hn he
            obtain ⟨x, hx, hxk⟩ := hn
            have := Timer.C55_other_service c s.db svc now (.cron key cron 0) h0 x hx hxk (fun y hy hyk hys => he y hy hys hyk) hr
            rw [this]
            refine ⟨⟨by simp, ?_⟩, by simp, by simp⟩
            rintro ⟨-, ⟨j, hj, hs, hk⟩ | hn⟩
            · exact absurd hk (he j hj hs)
            · exact absurd hxk (hn x hx)

/-- **C82** So after a refusal (bad expression, no timer, key of another service) the key can not be registered again in this process: every further attempt panics, whatever its expression. -/
theorem C82_refused_blocks (w : Consumer.World) (cd : Coding) (c : Timer.Cfg) (now : Nat) (t : TimerOf) (s : Sys) {key : Nat} (h0 : key ≠ 0) (cron : Nat) (task : Task)
    (hr : (registerTask w cd c now t s key cron task).2 ≠ .ok) (now' cron' : Nat) (task' : Task) :
    (registerTask w cd c now' t (registerTask w cd c now t s key cron task).1 key cron' task').2 = .taken := by
  have h1 := C82_registration w cd c now t s h0 cron task
  have h2 := (C82_registration w cd c now' t (registerTask w cd c now t s key cron task).1 h0 cron' task').1
  rw [h2]
  by_cases h : s.reg.handlers key = []
  · rw [(h1.2 h).1]; simp
  · rw [h1.1 h]; exact h

theorem handle_call (w : Consumer.World) (hist : List Consumer.Done) (call : Router.Call) : (Consumer.handle w hist call).call = call := by
  unfold Consumer.handle
  split
  · unfold Consumer.closure
    repeat' split
    all_goals rfl
  · rfl

theorem handleAll_calls (w : Consumer.World) (hist : List Consumer.Done) (cs : List Router.Call) :
    ∃ ds, Consumer.handleAll w hist cs = hist ++ ds ∧ ds.map (·.call) = cs := by
  induction cs generalizing hist with
  | nil => exact ⟨[], by simp [Consumer.handleAll]⟩
  | cons c cs ih =>
    obtain ⟨ds, h1, h2⟩ := ih (hist ++ [Consumer.handle w hist c])
    refine ⟨Consumer.handle w hist c :: ds, by rw [Consumer.handleAll_cons, h1]; simp, ?_⟩
    simp [handle_call, h2]

theorem loop_calls (rw' : Router.World) (e : Router.Event) : ∀ (hs : List Router.Handler) (cs : List Router.Call),
    ∃ l, (Router.onEventLoop rw' e hs cs).2 = cs ++ l ∧ ∀ x ∈ l, ∃ h ∈ hs, x.fn = h.fn.ident := by
  intro hs
  induction hs with
  | nil => intro cs; exact ⟨[], by simp [Router.onEventLoop]⟩
  | cons h hs ih =>
    intro cs
    simp only [Router.onEventLoop]
    split
    · exact ⟨[], by simp⟩
    · next a _ =>
      split
      · exact ⟨[], by simp⟩
      · split
        · exact ⟨[⟨h.fn.ident, a⟩], by simp, by simp⟩
        · split
          · exact ⟨[⟨h.fn.ident, a⟩], by simp, by simp⟩
          · obtain ⟨l, h1, h2⟩ := ih (cs ++ [⟨h.fn.ident, a⟩])
            refine ⟨⟨h.fn.ident, a⟩ :: l, by simp [h1], ?_⟩
            intro x hx
            rcases List.mem_cons.1 hx with rfl | hx
            · exact ⟨h, by simp, rfl⟩
            · obtain ⟨h', hm, he⟩ := h2 x hx
              exact ⟨h', by simp [hm], he⟩
        · split
          · exact ⟨[⟨h.fn.ident, a⟩], by simp, by simp⟩
          · exact ⟨[⟨h.fn.ident, a⟩], by simp, by simp⟩

/-- the callback for one job: the task is called exactly once if the job has its key, and not at all otherwise. -/
theorem onTimer_calls {w : Consumer.World} {cd : Coding} (hd : Decodes w cd) {r : Reg} {key : Nat} {task : Task} (ho : Only w cd r key task) (hist : List Consumer.Done) (j : Timer.Job) :
    ∃ ds, (onTimer w cd r hist j).2 = hist ++ ds ∧
      (ds.map (·.call)).filter (fun x => x.fn = task.ident) = if j.key = key then [⟨task.ident, argOf cd task j⟩] else [] := by
  unfold onTimer Consumer.deliver timerEvent
  simp only
  obtain ⟨ds, h1, h2⟩ := handleAll_calls w hist (Router.onEvent (Consumer.routerWorld w hist) r ⟨j.key, cd.enc j.key j.cron j.data⟩).2
  refine ⟨ds, h1, ?_⟩
  rw [h2]
  unfold Router.onEvent
  simp only
  by_cases hk : j.key = key
  · rw [if_pos hk, hk, ho.1]
    simp only [Router.onEventLoop]
    have harg : Router.arg (Consumer.routerWorld w hist) (handlerOf w cd task).eventType ⟨key, cd.enc key j.cron j.data⟩ = .inr (argOf cd task j) := by
      cases task with
      | func i =>
        simp only [handlerOf, Router.arg, argOf, ← hk]
        rw [if_neg (show cd.timerEvent ≠ (Consumer.routerWorld w hist).domainEvent from hd.1)]
        have : (Consumer.routerWorld w hist).decodeErr cd.timerEvent (cd.enc j.key j.cron j.data) = none := hd.2 _ _ _
        simp [this]
      | command i =>
        simp only [handlerOf, Router.arg, argOf, ← hk]
        rw [if_pos (show w.domainEvent = (Consumer.routerWorld w hist).domainEvent from rfl)]
    rw [harg]
    have h3 : (handlerOf w cd task).fn.takesCtx = true := by cases task <;> rfl
    have h4 : (handlerOf w cd task).fn.nilable = true := by cases task <;> rfl
    have h5 : (handlerOf w cd task).fn.ident = task.ident := by cases task <;> rfl
    simp only [h3, h4, h5, Bool.not_true, Bool.false_eq_true, if_false]
    split <;> simp
  · rw [if_neg hk]
    obtain ⟨l, h3, h4⟩ := loop_calls (Consumer.routerWorld w hist) ⟨j.key, cd.enc j.key j.cron j.data⟩ (r.handlers j.key) []
    rw [h3, List.nil_append, List.filter_eq_nil_iff]
    intro x hx
    obtain ⟨h, hm, he⟩ := h4 x hx
    simp only [decide_eq_true_eq]
    rw [he]
    exact ho.2 _ hk h hm

/-- the last run of a delivery that panics, panics. -/
theorem loop_panic (rw' : Router.World) (e : Router.Event) : ∀ (hs : List Router.Handler) (cs : List Router.Call), (Router.onEventLoop rw' e hs cs).1 = .panic →
    (∀ h ∈ hs, Router.WellTyped h.fn) → ∃ l x, (Router.onEventLoop rw' e hs cs).2 = cs ++ l ++ [x] ∧ rw'.answer (cs ++ l) x = .panic := by
  intro hs
  induction hs with
  | nil => intro cs h; simp [Router.onEventLoop] at h
  | cons h hs ih =>
    intro cs hp hw
    have h3 := (Router.wellTyped_iff.1 (hw h (by simp))).1
    have h4 := (Router.wellTyped_iff.1 (hw h (by simp))).2
    simp only [Router.onEventLoop, h3, h4, Bool.not_true, Bool.false_eq_true, if_false] at hp ⊢
    split at hp
    · simp at hp
    · next a _ =>
      split at hp
      · next hx => exact ⟨[], ⟨h.fn.ident, a⟩, by simp [hx], by simpa using hx⟩
      · next hx =>
        obtain ⟨l, x, h5, h6⟩ := ih _ hp fun h' hm => hw h' (by simp [hm])
        refine ⟨⟨h.fn.ident, a⟩ :: l, x, ?_, by simpa using h6⟩
        simp [hx, h5]
      · simp at hp

theorem onTimer_panic {w : Consumer.World} {cd : Coding} {r : Reg} (hw : ∀ k, ∀ h ∈ r.handlers k, Router.WellTyped h.fn) (hist : List Consumer.Done) (j : Timer.Job)
    (hp : (onTimer w cd r hist j).1 = .panic) : ∃ ds d, (onTimer w cd r hist j).2 = hist ++ ds ++ [d] ∧ d.ret = .panic := by
  unfold onTimer Consumer.deliver Router.onEvent at hp ⊢
  simp only at hp ⊢
  obtain ⟨l, x, h1, h2⟩ := loop_panic _ _ _ _ hp (hw _)
  rw [h1, List.nil_append, Consumer.handleAll_append]
  obtain ⟨ds, h3, _⟩ := handleAll_calls w hist l
  refine ⟨ds, Consumer.handle w (Consumer.handleAll w hist l) x, ?_, h2⟩
  rw [h3]
  rfl

theorem callAll_calls {w : Consumer.World} {cd : Coding} (hd : Decodes w cd) {r : Reg} {key : Nat} {task : Task} (ho : Only w cd r key task)
    (hw : ∀ k, ∀ h ∈ r.handlers k, Router.WellTyped h.fn) (js : List Timer.Job) : ∀ hist : List Consumer.Done,
    ∃ ds, callAll w cd r hist js = hist ++ ds ∧
      ((∀ d ∈ ds, d.ret ≠ .panic) → (ds.map (·.call)).filter (fun x => x.fn = task.ident) = (js.filter fun j => j.key = key).map fun j => ⟨task.ident, argOf cd task j⟩) := by
  induction js with
  | nil => intro hist; exact ⟨[], by simp [callAll]⟩
  | cons j js ih =>
    intro hist
    obtain ⟨ds, h1, h2⟩ := onTimer_calls hd ho hist j
    simp only [callAll]
    cases ho' : onTimer w cd r hist j with
    | mk out hist' =>
      rw [ho'] at h1
      simp only at h1
      cases out with
      | panic =>
        obtain ⟨ds', d, h3, h4⟩ := onTimer_panic hw hist j (by rw [ho'])
        rw [ho'] at h3
        refine ⟨ds' ++ [d], by simpa using h3, fun hall => absurd h4 (hall d (by simp))⟩
      | _ =>
        subst h1
        obtain ⟨ds', h3, h4⟩ := ih (hist ++ ds)
        refine ⟨ds ++ ds', by show callAll w cd r (hist ++ ds) js = _; rw [h3]; simp, fun hall => ?_⟩
        have h5 := h4 fun d hm => hall d (by simp [hm])
        rw [List.map_append, List.filter_append, h5, h2, List.filter_cons]
        by_cases hk : j.key = key <;> simp [hk]

/-- **C82** A poll of the timer calls a registered task exactly once for each due job with its key (of which there is at most one: C55_unique), with the key, the expression and the data of the job, and no more often; unless a callback
panics (then the process dies). Every due job of the service is rescheduled, and no other row changed, whatever the tasks answer: a failed task is not repeated before its next time. -/
theorem C82_poll {w : Consumer.World} {cd : Coding} (hd : Decodes w cd) {c : Timer.Cfg} {svc now : Nat} {s : Sys} {key : Nat} {task : Task} (ho : Only w cd s.reg key task)
    (hw : ∀ k, ∀ h ∈ s.reg.handlers k, Router.WellTyped h.fn) (hn : (s.db.jobs.map Timer.Job.id).Nodup) (hist : List Consumer.Done) :
    (∃ ds, (poll w cd c svc now s hist).2 = hist ++ ds ∧ ((∀ d ∈ ds, d.ret ≠ .panic) →
      (ds.map (·.call)).filter (fun x => x.fn = task.ident) = (s.db.jobs.filter fun j => IsDue svc now j ∧ j.key = key).map fun j => ⟨task.ident, argOf cd task j⟩)) ∧
    (poll w cd c svc now s hist).1.reg = s.reg ∧
    (poll w cd c svc now s hist).1.db.jobs = s.db.jobs.map fun j => if IsDue svc now j then (j.afterCall c now).stored c else j := by
  obtain ⟨h1, h2⟩ := Timer.C64_poll c svc now s.db hn
  refine ⟨?_, rfl, ?_⟩
  · obtain ⟨ds, h3, h4⟩ := callAll_calls hd ho hw (Timer.handleJobs c svc now s.db).2 hist
    refine ⟨ds, h3, fun hall => ?_⟩
    rw [h4 hall, h1, List.filter_filter]
    congr 1
    apply List.filter_congr
    intro j _
    unfold IsDue
    by_cases hk : j.key = key <;> simp [hk]
  · rw [show (poll w cd c svc now s hist).1.db = (Timer.handleJobs c svc now s.db).1 from rfl, h2]
    unfold IsDue
    rfl

end Ddd.Cron
