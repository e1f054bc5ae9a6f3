import Verif.Props.BusLTS
/-!
# MySQL event bus: concrete executions for C40, C41, C42, C46, and where these properties fail
-/
set_option linter.unusedVariables false
namespace Ddd.Bus
namespace LDemo

def ev (i : Nat) : DEv := ⟨10 + i, 0, .normal, 0, i⟩
def row (i : Nat) : EvRow := ⟨i, ev i, 0⟩
/-- the delivery record of service 7 for event `i` -/
def rec7 (i : Nat) : Rec := ⟨i, 7, i, 0, .init, 0, 0⟩
def job (r : Rec) (e : EvRow) : Job := ⟨7, 1, ⟨r, e⟩⟩
def cfg (st : Strategy) : Cfg := { window := 100, limit := 10, retention := 0, strategy := st }

/-- service 7 is registered and events `1 .. n` are dispatched -/
def dispatched (n : Nat) : List Act :=
  let ps := (List.range n).map fun i => row (i + 1)
  [.register 7, .insert (ps.map EvRow.ev), .list ps, .recs ps 7 [], .tick 1]

/-- a scan of service 7 that finds the records `rs` -/
def scan7 (rs : List Rec) : List Act := [.scanBegin 7, .scanOffset 7 1, .scanRows 7 1 1, .scanEvents 7 1 rs]

def calm : Pol := ⟨true, false, true, true, 0⟩
def strict : Pol := ⟨true, true, true, true, 0⟩

end LDemo
open LDemo

/-- **C46** is false when two workers overlap: both read the record; one handles it and records the success; the other one locks the row, checks only its own copy of the status, and calls the handler again. -/
theorem C46_handled_twice : ∃ s, Reachable (cfg (limitRetry 3)) calm s ∧
    s.log.take 3 = [.called 7 1 (row 1) 1, .returned 7 1 (row 1) .ok 1 true, .called 7 1 (row 1) 1] := by
  have := script_reaches (c := cfg (limitRetry 3)) (pol := calm)
    (acts := dispatched 1 ++ scan7 [rec7 1] ++ scan7 [rec7 1] ++ [.call (job (rec7 1) (row 1)), .finish (job (rec7 1) (row 1)) .ok, .call (job (rec7 1) (row 1))])
    (p := fun s => decide (s.log.take 3 = [.called 7 1 (row 1) 1, .returned 7 1 (row 1) .ok 1 true, .called 7 1 (row 1) 1])) (by decide +kernel)
  simpa using this

/-- **C46** Even worse: a failing stale call turns the recorded success back into a pending record. -/
theorem C46_success_forgotten : ∃ s, Reachable (cfg (limitRetry 3)) calm s ∧ Log.returned 7 1 (row 1) .ok 1 true ∈ s.log ∧ Pending s.db 7 1 := by
  unfold Pending
  exact script_reaches' (dispatched 1 ++ scan7 [rec7 1] ++ scan7 [rec7 1] ++
      [.call (job (rec7 1) (row 1)), .finish (job (rec7 1) (row 1)) .ok, .call (job (rec7 1) (row 1)), .finish (job (rec7 1) (row 1)) .err]) (by decide +kernel)

/-- **C42** is false when two workers overlap: the interval is 50, but the second call follows the failed one immediately. -/
theorem C42_too_early : ∃ s, Reachable (cfg (intervalRetry 50 3)) calm s ∧
    s.log.take 3 = [.called 7 1 (row 1) 1, .returned 7 1 (row 1) .err 1 true, .called 7 1 (row 1) 1] :=
  script_reaches' (dispatched 1 ++ scan7 [rec7 1] ++ scan7 [rec7 1] ++ [.call (job (rec7 1) (row 1)), .finish (job (rec7 1) (row 1)) .err, .call (job (rec7 1) (row 1))]) (by decide +kernel)

/-- **C41** needs its assumption: with limit 0 two calls are allowed; when two workers overlap there may be three, and the record is still pending. -/
theorem C41_too_many : ∃ s, Reachable (cfg (limitRetry 0)) calm s ∧ calls s.log 7 1 = 3 ∧ failures s.log 7 1 = 3 ∧ Pending s.db 7 1 := by
  unfold Pending
  exact script_reaches' (dispatched 1 ++ scan7 [rec7 1] ++ scan7 [rec7 1] ++ scan7 [rec7 1] ++
      [.call (job (rec7 1) (row 1)), .finish (job (rec7 1) (row 1)) .err, .call (job (rec7 1) (row 1)), .finish (job (rec7 1) (row 1)) .err,
       .call (job (rec7 1) (row 1)), .finish (job (rec7 1) (row 1)) .err]) (by decide +kernel)

/-- the handler was called with event `i` -/
def Log.callsWith (i : Nat) : Log → Bool
  | .called _ _ e _ => decide (e.id = i)
  | _ => false

/-- **C40** is false without the assumption `calm`: a worker reads the records of events 1, 2, 3; before it reads the events, another worker handles event 1 and it is cleaned; the first worker now pairs record 2 with event 3. Record 2
is marked success although event 2 was never handed to the handler. -/
theorem C40_lost : ∃ s, Reachable (cfg (limitRetry 3)) ⟨false, true, true, true, 0⟩ s ∧ Log.stored 7 2 ∈ s.log ∧ ¬ Pending s.db 7 2 ∧ (∃ r ∈ s.db.recs, r.eventId = 2 ∧ r.status = .success) ∧
    failures s.log 7 2 = 0 ∧ Log.expired 7 2 ∉ s.log ∧ ∀ x ∈ s.log, x.callsWith 2 = false := by
  unfold Pending
  exact script_reaches' (dispatched 3 ++ [.scanBegin 7, .scanOffset 7 1, .scanRows 7 1 1] ++ scan7 [rec7 1, rec7 2, rec7 3] ++
    [.call (job (rec7 1) (row 1)), .finish (job (rec7 1) (row 1)) .ok, .jobDrop (job (rec7 2) (row 2)), .jobDrop (job (rec7 3) (row 3)),
     .cleanSelect 7, .cleanRecs 7 [1] [], .cleanCount 7 [1] [], .cleanEvents 7 [1] [],
     .scanEvents 7 1 [rec7 1, rec7 2, rec7 3], .call (job (rec7 2) (row 3)), .finish (job (rec7 2) (row 3)) .ok]) (by decide +kernel)

/-- No event row `eid` exists any more, nor will it, and no worker has it in memory. -/
structure Gone (s : State) (eid : Nat) : Prop where
  events : ∀ e ∈ s.db.events, e.id ≠ eid
  old : eid < s.db.nextEv
  pend : ∀ j ∈ s.pend, j.t.e.id ≠ eid
  busy : ∀ j ∈ s.busy, j.t.e.id ≠ eid

theorem gone_step {c : Cfg} {pol : Pol} {s s' : State} {eid : Nat} (h : Gone s eid) (hst : Step c pol s s') :
    Gone s' eid ∧ ∃ l, s'.log = l ++ s.log ∧ ∀ x ∈ l, x.callsWith eid = false := by
  obtain ⟨h1, h2, h3, h4⟩ := h
  have quiet : Gone s' eid → s'.log = s.log → Gone s' eid ∧ ∃ l, s'.log = l ++ s.log ∧ ∀ x ∈ l, x.callsWith eid = false := fun h hl => ⟨h, [], by rw [hl]; rfl, by simp⟩
  have one : ∀ y, Gone s' eid → s'.log = y :: s.log → y.callsWith eid = false → Gone s' eid ∧ ∃ l, s'.log = l ++ s.log ∧ ∀ x ∈ l, x.callsWith eid = false :=
    fun y h hl hy => ⟨h, [y], by rw [hl]; rfl, by simpa using hy⟩
  cases hst with
  | register svc =>
    have e1 : (register s.db svc).events = s.db.events ∧ (register s.db svc).nextEv = s.db.nextEv := by unfold register; split <;> simp
    exact quiet ⟨by dsimp only; rw [e1.1]; exact h1, by dsimp only; rw [e1.2]; exact h2, h3, h4⟩ rfl
  | dispInsert tid es he =>
    refine quiet ⟨?_, Nat.lt_of_lt_of_le h2 (Nat.le_add_right ..), h3, h4⟩ rfl
    intro e he'
    rcases List.mem_append.1 he' with he' | he'
    · exact h1 e he'
    · have := (newEvents_range he').1; omega
  | dispRecs ps svc todo hps hu =>
    refine ⟨⟨h1, h2, h3, h4⟩, _, rfl, ?_⟩
    intro x hx
    obtain ⟨p, -, rfl⟩ := List.mem_map.1 hx
    rfl
  | scanEvents svc start rs hs hc =>
    refine quiet ⟨h1, h2, ?_, h4⟩ rfl
    intro j hj
    rcases List.mem_append.1 hj with hj | hj
    · obtain ⟨t, ht, rfl⟩ := List.mem_map.1 hj
      exact h1 _ (mem_pairUp ht).2
    · exact h3 j hj
  | call j hj hl hx hs hm hf =>
    refine one _ ⟨h1, h2, fun x hx => h3 x (List.mem_of_mem_erase hx), ?_⟩ rfl (by simp [Log.callsWith, h3 j hj])
    intro x hx
    rcases List.mem_cons.1 hx with rfl | hx
    · exact h3 _ hj
    · exact h4 x hx
  | blocked j hj hl hx hs hm hf => exact quiet ⟨h1, h2, fun x hx => h3 x (List.mem_of_mem_erase hx), h4⟩ rfl
  | jobDrop j => exact quiet ⟨h1, h2, fun x hx => h3 x (List.mem_of_mem_erase hx), h4⟩ rfl
  | finish j ret hj t0 ht => exact one _ ⟨h1, h2, h3, fun x hx => h4 x (List.mem_of_mem_erase hx)⟩ rfl rfl
  | finishLost j ret hj hp t0 ht => exact one _ ⟨h1, h2, h3, fun x hx => h4 x (List.mem_of_mem_erase hx)⟩ rfl rfl
  | crash j hp => exact quiet ⟨h1, h2, h3, fun x hx => h4 x (List.mem_of_mem_erase hx)⟩ rfl
  | cleanEvents svc d rest hd => exact quiet ⟨fun e he => h1 e (List.mem_of_mem_filter he), h2, h3, h4⟩ rfl
  | expire r hr hl hp => exact one _ ⟨h1, h2, h3, h4⟩ rfl rfl
  | _ => exact quiet ⟨h1, h2, h3, h4⟩ rfl

/-- what is gone stays gone: the event is never handed to a handler again -/
theorem gone_forever {c : Cfg} {pol : Pol} {s s' : State} {eid : Nat} (h : Gone s eid) (hst : Steps c pol s s') :
    Gone s' eid ∧ s'.log.countP (Log.callsWith eid) = s.log.countP (Log.callsWith eid) := by
  induction hst with
  | refl => exact ⟨h, rfl⟩
  | step h1 h2 ih =>
    obtain ⟨h3, l, h4, h5⟩ := gone_step ih.1 h2
    refine ⟨h3, ?_⟩
    rw [h4, ← ih.2, List.countP_append, List.countP_eq_zero.2 (by intro x hx; simp [h5 x hx]), Nat.zero_add]

/-- **C40, C47** A second race, between a dispatch and a cleaning (only if the retention time passes during the dispatch): the record of service 7 is inserted, handled and cleaned, and the event is removed as nobody
references it; then the dispatch inserts the record of service 8. Its event is gone, and in every future no handler is called with it, although the record stays pending. All the other assumptions hold. -/
theorem C40_dangling : ∃ s, Reachable (cfg (limitRetry 3)) strict s ∧ Log.stored 8 1 ∈ s.log ∧ Pending s.db 8 1 ∧
    ∀ s', Steps (cfg (limitRetry 3)) strict s s' → (∀ e ∈ s'.db.events, e.id ≠ 1) ∧ s'.log.countP (Log.callsWith 1) = 1 := by
  have : ∃ s, Reachable (cfg (limitRetry 3)) strict s ∧ (Log.stored 8 1 ∈ s.log ∧ (∃ r ∈ s.db.recs, r.service = 8 ∧ r.eventId = 1 ∧ r.status = .init) ∧
      (∀ e ∈ s.db.events, e.id ≠ 1) ∧ 1 < s.db.nextEv ∧ (∀ j ∈ s.pend, j.t.e.id ≠ 1) ∧ (∀ j ∈ s.busy, j.t.e.id ≠ 1) ∧ s.log.countP (Log.callsWith 1) = 1) :=
    script_reaches' ([.register 7, .register 8, .insert [ev 1], .list [row 1], .recs [row 1] 7 [8], .tick 1] ++ scan7 [rec7 1] ++
      [.call (job (rec7 1) (row 1)), .finish (job (rec7 1) (row 1)) .ok, .cleanSelect 7, .cleanRecs 7 [1] [], .cleanCount 7 [1] [], .cleanEvents 7 [1] [], .recs [row 1] 8 []])
      (by decide +kernel)
  obtain ⟨s, h1, h2, h3, h4, h5, h6, h7, h8⟩ := this
  refine ⟨s, h1, h2, h3, ?_⟩
  intro s' hs
  obtain ⟨hg, hc⟩ := gone_forever ⟨h4, h5, h6, h7⟩ hs
  exact ⟨hg.events, by rw [hc, h8]⟩

/-- an execution meeting all assumptions: with limit 0 the record is failed after two calls; meanwhile event 2 is handled, cleaned and removed. -/
theorem bus_lts_demo : ∃ s, Reachable (cfg (limitRetry 0)) strict s ∧ (∃ r ∈ s.db.recs, r.service = 7 ∧ r.eventId = 1 ∧ r.status = .failed) ∧ calls s.log 7 1 = 2 ∧ failures s.log 7 1 = 2 ∧
    Log.stored 7 2 ∈ s.log ∧ (∀ r ∈ s.db.recs, r.eventId ≠ 2) ∧ calls s.log 7 2 = 1 :=
  script_reaches' (dispatched 2 ++ scan7 [rec7 1, rec7 2] ++
    [.call (job (rec7 1) (row 1)), .call (job (rec7 2) (row 2)), .finish (job (rec7 2) (row 2)) .ok, .finish (job (rec7 1) (row 1)) .err,
     .cleanSelect 7, .cleanRecs 7 [2] [], .cleanCount 7 [2] [], .cleanEvents 7 [2] [], .tick 5] ++
     scan7 [{ rec7 1 with retry := 1, next := 1 }] ++
    [.call (job { rec7 1 with retry := 1, next := 1 } (row 1)), .finish (job { rec7 1 with retry := 1, next := 1 } (row 1)) .panic]) (by decide +kernel)

/-- back-off met: interval 50, second call 60 later -/
theorem bus_backoff_demo : ∃ s, Reachable (cfg (intervalRetry 50 3)) strict s ∧
    s.log.take 3 = [.called 7 1 (row 1) 61, .returned 7 1 (row 1) .err 1 true, .called 7 1 (row 1) 1] :=
  script_reaches' (dispatched 1 ++ scan7 [rec7 1] ++ [.call (job (rec7 1) (row 1)), .finish (job (rec7 1) (row 1)) .err, .tick 60] ++ scan7 [{ rec7 1 with retry := 1, next := 51 }] ++
    [.call (job { rec7 1 with retry := 1, next := 51 } (row 1))]) (by decide +kernel)

end Ddd.Bus
