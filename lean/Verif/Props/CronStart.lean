import Verif.Props.Cron
import Verif.Props.CronDemo
import Verif.Props.Router
/-!
# C117: timer jobs and the handlers of their keys
-/
set_option linter.unusedVariables false
set_option linter.unusedSimpArgs false
namespace Ddd.Cron
open Router (Reg Fn)

theorem handle_first {w : Consumer.World} {r : Reg} {hist : List Consumer.Done} {e : Router.Event} {f : Fn} {ty : Nat} {hs : List Router.Handler} {a : Router.Arg} (hr : r.handlers e.typ = ⟨f, ty⟩ :: hs)
    (hw : Router.WellTyped f) (ha : Router.Given (Consumer.routerWorld w []) e ty a) : ∃ ds, (Consumer.deliver w r hist e).2 = hist ++ ds ∧ ∃ d ∈ ds, d.call = ⟨f.ident, a⟩ := by
  obtain ⟨ds, h1, h2⟩ := handleAll_calls w hist (Router.onEvent (Consumer.routerWorld w hist) r e).2
  refine ⟨ds, h1, ?_⟩
  have hmem : (⟨f.ident, a⟩ : Router.Call) ∈ (Router.onEvent (Consumer.routerWorld w hist) r e).2 := by
    have harg : Router.arg (Consumer.routerWorld w hist) ty e = .inr a := by
      rcases ha with ⟨h3, rfl⟩ | ⟨h3, h4, rfl⟩
      · simp only [Router.arg]; rw [if_pos (show ty = (Consumer.routerWorld w hist).domainEvent from h3)]
      · simp only [Router.arg]
        rw [if_neg (show ty ≠ (Consumer.routerWorld w hist).domainEvent from h3)]
        have h4 : (Consumer.routerWorld w hist).decodeErr ty e.payload = none := h4
        rw [h4]
    unfold Router.onEvent
    rw [hr]
    simp only [Router.onEventLoop, harg, (Router.wellTyped_iff.1 hw).1, (Router.wellTyped_iff.1 hw).2, Bool.not_true, Bool.false_eq_true, if_false]
    split
    · simp
    · obtain ⟨l, h3, -⟩ := loop_calls (Consumer.routerWorld w hist) e hs ([] ++ [⟨f.ident, a⟩])
      rw [h3]; simp
    · simp
  rw [← h2] at hmem
  obtain ⟨d, hd, h3⟩ := List.mem_map.1 hmem
  exact ⟨d, hd, h3⟩

theorem deliver_grows (w : Consumer.World) (r : Reg) (hist : List Consumer.Done) (e : Router.Event) : ∃ ds, (Consumer.deliver w r hist e).2 = hist ++ ds := by
  obtain ⟨ds, h1, -⟩ := handleAll_calls w hist (Router.onEvent (Consumer.routerWorld w hist) r e).2
  exact ⟨ds, h1⟩

theorem callAll_reaches {w : Consumer.World} {cd : Coding} {r : Reg} (hw : ∀ k, ∀ h ∈ r.handlers k, Router.WellTyped h.fn) {j : Timer.Job} {f : Fn} {ty : Nat} {hs : List Router.Handler} {a : Router.Arg}
    (hr : r.handlers j.key = ⟨f, ty⟩ :: hs) (ha : Router.Given (Consumer.routerWorld w []) (timerEvent cd j) ty a) (js : List Timer.Job) : ∀ (hist : List Consumer.Done), j ∈ js →
    ∃ ds, callAll w cd r hist js = hist ++ ds ∧ ((∀ d ∈ ds, d.ret ≠ .panic) → ∃ d ∈ ds, d.call = ⟨f.ident, a⟩) := by
  induction js with
  | nil => intro hist h; simp at h
  | cons x js ih =>
    intro hist hm
    have hgrow : ∀ (js : List Timer.Job) (h : List Consumer.Done), ∃ ds, callAll w cd r h js = h ++ ds := by
      intro js
      induction js with
      | nil => intro h; exact ⟨[], by simp [callAll]⟩
      | cons y js ih =>
        intro h
        obtain ⟨ds, h1⟩ := deliver_grows w r h (timerEvent cd y)
        have h1 : (onTimer w cd r h y).2 = h ++ ds := h1
        simp only [callAll]
        cases ho : onTimer w cd r h y with
        | mk out h' =>
          rw [ho] at h1
          simp only at h1
          subst h1
          obtain ⟨ds', h2⟩ := ih (h ++ ds)
          cases out with
          | panic => exact ⟨ds, rfl⟩
          | nil => exact ⟨ds ++ ds', by rw [← List.append_assoc]; exact h2⟩
          | err e => exact ⟨ds ++ ds', by rw [← List.append_assoc]; exact h2⟩
    by_cases hx : x = j
    · subst hx
      obtain ⟨ds, h1, h2⟩ := handle_first (w := w) (hist := hist) (e := timerEvent cd x) hr (hw _ ⟨f, ty⟩ (by rw [hr]; simp)) ha
      have h1 : (onTimer w cd r hist x).2 = hist ++ ds := h1
      simp only [callAll]
      cases ho : onTimer w cd r hist x with
      | mk out hist' =>
        rw [ho] at h1
        simp only at h1
        subst h1
        obtain ⟨ds', h3⟩ := hgrow js (hist ++ ds)
        obtain ⟨d, hd, h4⟩ := h2
        cases out with
        | panic => exact ⟨ds, rfl, fun _ => ⟨d, hd, h4⟩⟩
        | nil => exact ⟨ds ++ ds', by rw [← List.append_assoc]; exact h3, fun _ => ⟨d, by simp [hd], h4⟩⟩
        | err e => exact ⟨ds ++ ds', by rw [← List.append_assoc]; exact h3, fun _ => ⟨d, by simp [hd], h4⟩⟩
    · have hm : j ∈ js := by
        rcases List.mem_cons.1 hm with h | h
        · exact absurd h.symm hx
        · exact h
      obtain ⟨ds, h1⟩ := deliver_grows w r hist (timerEvent cd x)
      have h1 : (onTimer w cd r hist x).2 = hist ++ ds := h1
      simp only [callAll]
      cases ho : onTimer w cd r hist x with
      | mk out hist' =>
        have hpan := onTimer_panic (w := w) (cd := cd) hw hist x
        rw [ho] at h1 hpan
        simp only at h1 hpan
        obtain ⟨ds', h3, h4⟩ := ih hist' hm
        cases out with
        | panic =>
          obtain ⟨ds1, d, h5, h6⟩ := hpan rfl
          exact ⟨ds1 ++ [d], by simp only; rw [h5, List.append_assoc], fun hall => absurd h6 (hall d (by simp))⟩
        | nil =>
          refine ⟨ds ++ ds', by simp only; rw [h3, h1, List.append_assoc], fun hall => ?_⟩
          obtain ⟨d, hd, h5⟩ := h4 fun d hd => hall d (by simp [hd])
          exact ⟨d, by simp [hd], h5⟩
        | err e =>
          refine ⟨ds ++ ds', by simp only; rw [h3, h1, List.append_assoc], fun hall => ?_⟩
          obtain ⟨d, hd, h5⟩ := h4 fun d hd => hall d (by simp [hd])
          exact ⟨d, by simp [hd], h5⟩

/-- **C117** (1) If a handler was registered for the key, a poll calls the (first) handler with the data of every due job of the key, unless a callback panics (then the process ends). -/
theorem C117_called_partial {w : Consumer.World} {cd : Coding} {c : Timer.Cfg} {svc now : Nat} {s : Sys} {regs : List Router.RegCall} {f : Fn} {ty : Nat} {fs : List (Fn × Nat)} {a : Router.Arg} {j : Timer.Job}
    (hreg : s.reg = Reg.after regs) (hf : Router.Registered j.key regs ((f, ty) :: fs)) (hw : ∀ k, ∀ h ∈ s.reg.handlers k, Router.WellTyped h.fn) (hn : (s.db.jobs.map Timer.Job.id).Nodup)
    (hj : j ∈ s.db.jobs) (hd : IsDue svc now j) (ha : Router.Given (Consumer.routerWorld w []) ⟨j.key, cd.enc j.key j.cron j.data⟩ ty a) (hist : List Consumer.Done) :
    ∃ ds, (poll w cd c svc now s hist).2 = hist ++ ds ∧ ((∀ d ∈ ds, d.ret ≠ .panic) → ∃ d ∈ ds, d.call = ⟨f.ident, a⟩) := by
  have hr : s.reg.handlers j.key = ⟨f, ty⟩ :: fs.map fun p => ⟨p.1, p.2⟩ := by rw [hreg, Router.registered_handlers hf]; rfl
  refine callAll_reaches hw hr ha _ hist ?_
  rw [(Timer.C64_poll c svc now s.db hn).1, List.mem_filter]
  exact ⟨hj, by simpa [IsDue] using hd⟩

/-- **C117** (2) If no handler is registered for the keys of the due jobs (say, the timer was started before the registrations), a poll calls nothing, and a one-shot job is finished all the same. -/
theorem C117_lost {w : Consumer.World} {cd : Coding} {c : Timer.Cfg} {svc now : Nat} {s : Sys} {regs : List Router.RegCall} (hreg : s.reg = Reg.after regs) (hn : (s.db.jobs.map Timer.Job.id).Nodup)
    (hnone : ∀ j ∈ s.db.jobs, IsDue svc now j → Router.Registered j.key regs []) (hist : List Consumer.Done) :
    (poll w cd c svc now s hist).2 = hist ∧ ∀ j ∈ s.db.jobs, IsDue svc now j → j.cron = 0 →
      { j with status := .finished, next := c.round j.next } ∈ (poll w cd c svc now s hist).1.db.jobs := by
  obtain ⟨h1, h2⟩ := Timer.C64_poll c svc now s.db hn
  constructor
  · show callAll w cd s.reg hist (Timer.handleJobs c svc now s.db).2 = hist
    rw [h1]
    have : ∀ js : List Timer.Job, (∀ j ∈ js, s.reg.handlers j.key = []) → callAll w cd s.reg hist js = hist := by
      intro js
      induction js with
      | nil => intro _; rfl
      | cons j js ih =>
        intro h
        have h3 : onTimer w cd s.reg hist j = (.nil, hist) := by
          simp only [onTimer, Consumer.deliver, timerEvent, Router.onEvent, h j (by simp), Router.onEventLoop]; rfl
        simp only [callAll, h3]
        exact ih fun j hj => h j (by simp [hj])
    apply this
    intro j hj
    obtain ⟨h3, h4⟩ := List.mem_filter.1 hj
    rw [hreg, Router.registered_handlers (hnone j h3 (by simpa [IsDue] using h4))]; rfl
  · intro j hj hd h0
    show _ ∈ (Timer.handleJobs c svc now s.db).1.jobs
    rw [h2, List.mem_map]
    refine ⟨j, hj, ?_⟩
    rw [if_pos (show j.service = svc ∧ j.next ≤ now ∧ j.status = .toRun from hd)]
    simp [Timer.Job.afterCall, Timer.Job.step, Timer.Job.stored, h0]

theorem afterCall_same_id (c : Timer.Cfg) (now : Nat) (x : Timer.Job) : ((x.afterCall c now).stored c).id = x.id := by
  show (x.afterCall c now).id = x.id
  unfold Timer.Job.afterCall Timer.Job.step Timer.Job.reset
  by_cases h : x.cron = 0
  · simp [h]
  · simp only [h, ne_eq, not_false_eq_true, if_true, if_false]
    cases c.parse x.cron <;> rfl

/-- **C117** (3) … for good: no later poll, whatever is registered by then, has work with a finished job. -/
theorem C117_lost_forever {w : Consumer.World} {cd : Coding} {c : Timer.Cfg} {svc : Nat} {j : Timer.Job} (hf : j.status = .finished) (l : List (Reg × Nat)) : ∀ {s : Sys} {hist : List Consumer.Done},
    (s.db.jobs.map Timer.Job.id).Nodup → j ∈ s.db.jobs → j ∈ (polls w cd c svc s hist l).1.db.jobs ∧
      ∀ pre r now post, l = pre ++ (r, now) :: post → ∀ x ∈ (Timer.handleJobs c svc now (polls w cd c svc s hist pre).1.db).2, x.id ≠ j.id := by
  induction l with
  | nil =>
    intro s hist hn hj
    exact ⟨hj, fun pre r now post h => by simp at h⟩
  | cons p l ih =>
    obtain ⟨r, now⟩ := p
    intro s hist hn hj
    obtain ⟨h1, h2⟩ := Timer.C64_poll c svc now s.db hn
    have hdb : (poll w cd c svc now { s with reg := r } hist).1.db = (Timer.handleJobs c svc now s.db).1 := rfl
    have hids : ((poll w cd c svc now { s with reg := r } hist).1.db.jobs.map Timer.Job.id) = s.db.jobs.map Timer.Job.id := by
      rw [hdb, h2, List.map_map]
      apply List.map_congr_left
      intro x hx
      simp only [Function.comp]
      split
      · exact afterCall_same_id c now x
      · rfl
    have hj' : j ∈ (poll w cd c svc now { s with reg := r } hist).1.db.jobs := by
      rw [hdb, h2, List.mem_map]
      refine ⟨j, hj, ?_⟩
      rw [if_neg]
      rintro ⟨-, -, h⟩
      rw [hf] at h; cases h
    obtain ⟨q1, q2⟩ := ih (s := (poll w cd c svc now { s with reg := r } hist).1) (hist := (poll w cd c svc now { s with reg := r } hist).2) (by rw [hids]; exact hn) hj'
    refine ⟨q1, ?_⟩
    intro pre r' now' post h x hx
    rcases pre with _ | ⟨q, pre⟩
    · simp only [List.nil_append, List.cons.injEq, Prod.mk.injEq] at h
      obtain ⟨⟨rfl, rfl⟩, rfl⟩ := h
      have hx : x ∈ (Timer.handleJobs c svc now s.db).2 := hx
      rw [h1, List.mem_filter] at hx
      intro hid
      have := List.inj_on_of_nodup_map hn hx.1 hj hid
      subst this
      have := hx.2
      simp [hf] at this
    · simp only [List.cons_append, List.cons.injEq] at h
      obtain ⟨rfl, h⟩ := h
      exact q2 pre r' now' post h x hx

/-- **C117** (4) The keys of jobs and the types of events are one namespace: an event published with the key of a task as its type calls the task, although no job is due. -/
theorem C117_event_fires {w : Consumer.World} {cd : Coding} {r : Reg} {key : Nat} {task : Task} (ho : Only w cd r key task) {e : Router.Event} (hk : e.typ = key)
    (hd : ∀ i, task = .func i → w.decodeErr cd.timerEvent e.payload = none) (hist : List Consumer.Done) :
    ∃ d, (Consumer.deliver w r hist e).2 = hist ++ [d] ∧ d.call.fn = task.ident := by
  obtain ⟨a, ha⟩ : ∃ a, Router.arg (Consumer.routerWorld w hist) (handlerOf w cd task).eventType e = .inr a := by
    unfold Router.arg
    split
    · exact ⟨_, rfl⟩
    · rename_i hne
      cases task with
      | func i =>
        have : (Consumer.routerWorld w hist).decodeErr cd.timerEvent e.payload = none := hd i rfl
        simp only [handlerOf, this]
        exact ⟨_, rfl⟩
      | command i => exact absurd rfl hne
  have hcalls : (Router.onEvent (Consumer.routerWorld w hist) r e).2 = [⟨task.ident, a⟩] := by
    unfold Router.onEvent
    rw [hk, ho.1]
    have h3 : (handlerOf w cd task).fn.takesCtx = true := by cases task <;> rfl
    have h4 : (handlerOf w cd task).fn.nilable = true := by cases task <;> rfl
    have h5 : (handlerOf w cd task).fn.ident = task.ident := by cases task <;> rfl
    simp only [Router.onEventLoop, ha, h3, h4, h5, Bool.not_true, Bool.false_eq_true, if_false]
    split <;> simp
  show ∃ d, Consumer.handleAll w hist (Router.onEvent (Consumer.routerWorld w hist) r e).2 = hist ++ [d] ∧ _
  rw [hcalls]
  exact ⟨_, rfl, by rw [handle_call]⟩

/-- **C117** (5) … and only so: events of other types never call it. -/
theorem C117_events_apart {w : Consumer.World} {cd : Coding} {r : Reg} {key : Nat} {task : Task} (ho : Only w cd r key task) {e : Router.Event} (hk : e.typ ≠ key) (hist : List Consumer.Done) :
    ∃ ds, (Consumer.deliver w r hist e).2 = hist ++ ds ∧ ∀ d ∈ ds, d.call.fn ≠ task.ident := by
  obtain ⟨ds, h1, h2⟩ := handleAll_calls w hist (Router.onEvent (Consumer.routerWorld w hist) r e).2
  refine ⟨ds, h1, ?_⟩
  intro d hd
  have : d.call ∈ (Router.onEvent (Consumer.routerWorld w hist) r e).2 := by rw [← h2]; exact List.mem_map_of_mem hd
  obtain ⟨l, h3, h4⟩ := loop_calls (Consumer.routerWorld w hist) e (r.handlers e.typ) []
  have h5 : d.call ∈ l := by
    unfold Router.onEvent at this
    rw [h3] at this
    simpa using this
  obtain ⟨h, hm, he⟩ := h4 _ h5
  rw [he]
  exact ho.2 _ hk h hm

/-! ## concrete cases -/
namespace Demo

/-- a one-shot job with key 30 that is due at 100 -/
def job : Timer.Job := ⟨1, 1, 30, 0, 100, .toRun, 7⟩
def early : Sys := ⟨Reg.after [], ⟨[job], 2⟩⟩

/-- polled before the handler is registered: finished, nothing called, also by a later poll with the handler -/
example : (poll world cd cfg 1 100 early []).2 = [] ∧ { job with status := .finished } ∈ (poll world cd cfg 1 100 early []).1.db.jobs :=
  let h := C117_lost (w := world) (cd := cd) (c := cfg) (svc := 1) (now := 100) (s := early) (regs := []) rfl (by decide) (fun _ _ _ => .none) []
  ⟨h.1, h.2 job (by decide) (by decide) rfl⟩
example : ∀ x ∈ (Timer.handleJobs cfg 1 200 (polls world cd cfg 1 (poll world cd cfg 1 100 early []).1 [] []).1.db).2, x.id ≠ 1 :=
  (C117_lost_forever (j := { job with status := .finished }) rfl [(Reg.after [.handler 30 (funcFn cd 5)], 200)] (s := (poll world cd cfg 1 100 early []).1) (by decide) (by decide)).2 [] _ 200 [] rfl

/-- polled afterwards: called -/
example : ∃ ds, (poll world cd cfg 1 100 { early with reg := Reg.after [.handler 30 (funcFn cd 5)] } []).2 = [] ++ ds ∧
    ((∀ d ∈ ds, d.ret ≠ .panic) → ∃ d ∈ ds, d.call = ⟨5, .decoded 6 30007⟩) :=
  C117_called_partial (regs := [.handler 30 (funcFn cd 5)]) (f := funcFn cd 5) (ty := 6) (fs := []) (j := job) rfl (.here (cs := []) (fs := []) .none ⟨rfl, _, _, _, rfl, rfl, rfl, rfl, rfl, rfl⟩)
    (by
      intro k h hm
      have : (Reg.after [.handler 30 (funcFn cd 5)]).handlers k = if k = 30 then [⟨funcFn cd 5, 6⟩] else [] := rfl
      change h ∈ (Reg.after [.handler 30 (funcFn cd 5)]).handlers k at hm
      rw [this] at hm
      split at hm
      · simp at hm; subst hm; exact Router.wellTyped_iff.2 ⟨rfl, rfl⟩
      · simp at hm) (by decide) (by decide) (by decide) (.inr ⟨by decide, by decide, rfl⟩) []

/-- an event of type 20 calls the cron task with key 20 -/
example : ∃ d, (Consumer.deliver world two.reg [] ⟨20, 77⟩).2 = [] ++ [d] ∧ d.call.fn = 5 :=
  C117_event_fires demo_only.1 rfl (fun _ _ => by decide) []

end Demo
end Ddd.Cron
