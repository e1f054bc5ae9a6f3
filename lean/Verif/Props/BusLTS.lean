import Verif.Proofs.BusCount
import Verif.Props.BusScript
/-!
# MySQL event bus under all interleavings: C40, C41, C42, C46
-/
set_option linter.unusedVariables false
set_option linter.unusedSimpArgs false
namespace Ddd.Bus

/-! ## the built-in strategies -/

theorem counting_limitRetry (L : Int) : Counting (limitRetry L) := by
  intro count now c t h
  unfold limitRetry at h
  split at h
  · cases h
  · cases h; rfl

theorem counting_intervalRetry (d : Nat) (L : Int) : Counting (intervalRetry d L) := by
  intro count now c t h
  unfold intervalRetry at h
  split at h
  · cases h
  · cases h; rfl

theorem counting_customRetry (ds : List Nat) : Counting (customRetry ds) := by
  intro count now c t h
  unfold customRetry at h
  split at h
  · cases h
  · cases h; rfl

theorem givesUp_limitRetry {L : Int} (hL : -1 ≤ L) (n : Nat) : GivesUp (limitRetry L) n ↔ L + 2 ≤ (n : Int) := by
  constructor
  · rintro ⟨count, now, h1, h2⟩
    unfold limitRetry at h2
    split at h2
    · omega
    · cases h2
  · intro h
    refine ⟨(L + 1).toNat, 0, by omega, ?_⟩
    unfold limitRetry
    rw [if_pos (by omega)]

theorem givesUp_intervalRetry {L : Int} (hL : -1 ≤ L) (d n : Nat) : GivesUp (intervalRetry d L) n ↔ L + 2 ≤ (n : Int) := by
  constructor
  · rintro ⟨count, now, h1, h2⟩
    unfold intervalRetry at h2
    split at h2
    · omega
    · cases h2
  · intro h
    refine ⟨(L + 1).toNat, 0, by omega, ?_⟩
    unfold intervalRetry
    rw [if_pos (by omega)]

theorem givesUp_customRetry (ds : List Nat) (n : Nat) : GivesUp (customRetry ds) n ↔ ds.length + 1 ≤ n := by
  constructor
  · rintro ⟨count, now, h1, h2⟩
    unfold customRetry at h2
    split at h2
    · rename_i h3
      have := List.getElem?_eq_none_iff.1 h3
      omega
    · cases h2
  · intro h
    refine ⟨ds.length, 0, by omega, ?_⟩
    unfold customRetry
    simp

/-! ## C40 -/

/-- **C40 (partial)** No event is lost. Whatever dispatchers, workers and cleaners do, at the same time and with crashes: a delivery record that was stored is still pending, or the handler ran successfully for
its event, or it failed as often as the strategy allows, or somebody expired the record by hand. Assumption `calm`: when a scan reads its events, the events of the records it has read are still there; without it the property is false
(`C40_lost`). -/
theorem C40_no_loss_partial {c : Cfg} {pol : Pol} (hcalm : pol.calm = true) (hcount : Counting c.strategy) {s : State} (h : Reachable c pol s) {svc eid : Nat} (hs : .stored svc eid ∈ s.log) :
    Pending s.db svc eid ∨ HandledOk s.log svc eid ∨ GivesUp c.strategy (failures s.log svc eid) ∨ .expired svc eid ∈ s.log := by
  have hsafe := safe_reachable hcalm hcount h
  rcases hsafe.stored svc eid hs with ⟨r, hr, rfl, rfl⟩ | h2
  · have hb := hsafe.rows r hr
    cases hst : r.status with
    | init => exact .inl ⟨r, hr, rfl, rfl, hst⟩
    | success => exact .inr (.inl (hb.success hst))
    | failed => exact .inr (.inr (.inl (hb.failed hst)))
    | precedingFailed => exact absurd hst hb.noPrec
    | expired => exact .inr (.inr (.inr (hb.expired hst)))
  · exact .inr (.inl h2)

/-- **C40 (partial)** with the fixed-interval strategies: `Limit + 2` failures. -/
theorem C40_no_loss_limit_partial {c : Cfg} {pol : Pol} (hcalm : pol.calm = true) {L : Int} (hL : -1 ≤ L) (hst : c.strategy = limitRetry L ∨ ∃ d, c.strategy = intervalRetry d L) {s : State}
    (h : Reachable c pol s) {svc eid : Nat} (hs : .stored svc eid ∈ s.log) :
    Pending s.db svc eid ∨ HandledOk s.log svc eid ∨ L + 2 ≤ (failures s.log svc eid : Int) ∨ .expired svc eid ∈ s.log := by
  rcases hst with hst | ⟨d, hst⟩
  · have := C40_no_loss_partial hcalm (by rw [hst]; exact counting_limitRetry L) h hs
    rwa [hst, givesUp_limitRetry hL] at this
  · have := C40_no_loss_partial hcalm (by rw [hst]; exact counting_intervalRetry d L) h hs
    rwa [hst, givesUp_intervalRetry hL] at this

/-- **C40 (partial)** Only a successful handling lets cleaning remove the record. -/
theorem C40_removed_after_success_partial {c : Cfg} {pol : Pol} (hcalm : pol.calm = true) (hcount : Counting c.strategy) {s : State} (h : Reachable c pol s) {svc eid : Nat} (hs : .stored svc eid ∈ s.log)
    (hgone : ∀ r ∈ s.db.recs, ¬ (r.service = svc ∧ r.eventId = eid)) : HandledOk s.log svc eid := by
  rcases (safe_reachable hcalm hcount h).stored svc eid hs with ⟨r, hr, h2⟩ | h2
  · exact absurd h2 (hgone r hr)
  · exact h2

/-- who is called: under the same assumption a handler is called with the event of its record. -/
theorem C40_own_event_partial {c : Cfg} {pol : Pol} (hcalm : pol.calm = true) (hcount : Counting c.strategy) {s : State} (h : Reachable c pol s) {svc eid t : Nat} {e : EvRow} (hc : .called svc eid e t ∈ s.log) :
    e.id = eid := by
  induction h with
  | init => simp [State.init] at hc
  | step h1 hst ih =>
    cases hst with
    | dispRecs ps sv todo hps hu => exact ih (by simpa using hc)
    | call j hj hl hx hs hm hf =>
      rcases List.mem_cons.1 hc with hc | hc
      · cases hc; exact (safe_reachable hcalm hcount h1).pend j hj
      · exact ih hc
    | finish j ret hj t0 ht => exact ih (by simpa using hc)
    | finishLost j ret hj hp t0 ht => exact ih (by simpa using hc)
    | expire r hr hl hp => exact ih (by simpa using hc)
    | _ => exact ih hc

/-! ## C46 -/

theorem settled_done {c : Cfg} {pol : Pol} (hfresh : pol.fresh = true) {s : State} (h : Reachable c pol s) {svc eid : Nat} :
    ((∃ e t, Log.returned svc eid e .ok t true ∈ s.log) → Settled s svc eid) ∧
    s.log.Pairwise fun later earlier => (∃ e t, earlier = .returned svc eid e .ok t true) → later.isCall svc eid = false := by
  induction h with
  | init => exact ⟨by simp [State.init], by simp [State.init]⟩
  | @step s s' h1 hst ih =>
    have hi := inv_reachable h1
    have hh := held_reachable hfresh h1
    have hset : (∃ e t, Log.returned svc eid e .ok t true ∈ s.log) → Settled s' svc eid ∧ ∃ l, s'.log = l ++ s.log ∧ ∀ x ∈ l, x.isCall svc eid = false := fun hd => settled_step hfresh hi hh (ih.1 hd) hst
    have quiet : ∀ l, s'.log = l ++ s.log → (∀ x ∈ l, ∀ e t, x ≠ .returned svc eid e .ok t true) → ((∃ e t, Log.returned svc eid e .ok t true ∈ s'.log) → Settled s' svc eid) ∧
        s'.log.Pairwise fun later earlier => (∃ e t, earlier = .returned svc eid e .ok t true) → later.isCall svc eid = false := by
      intro l hl hn
      constructor
      · rintro ⟨e, t, hd⟩
        rw [hl] at hd
        rcases List.mem_append.1 hd with hd | hd
        · exact absurd rfl (hn _ hd e t)
        · exact (hset ⟨e, t, hd⟩).1
      · rw [hl, List.pairwise_append]
        refine ⟨?_, ih.2, ?_⟩
        · exact List.pairwise_of_forall_mem_list (fun a _ b hb => by rintro ⟨e, t, rfl⟩; exact absurd rfl (hn _ hb e t))
        · rintro a ha b hb ⟨e, t, rfl⟩
          obtain ⟨l', hl', hc⟩ := (hset ⟨e, t, hb⟩).2
          rw [hl] at hl'
          rw [List.append_cancel_right hl'] at ha
          exact hc a ha
    cases hst with
    | dispRecs ps sv todo hps hu => exact quiet _ rfl (by intro x hx e t; obtain ⟨p, -, rfl⟩ := List.mem_map.1 hx; simp)
    | call j hj hl hx hs hm hf => exact quiet [_] rfl (by intro x hx e t; simp only [List.mem_singleton] at hx; subst hx; simp)
    | finishLost j ret hj hp t0 ht => exact quiet [_] rfl (by intro x hx e t; simp only [List.mem_singleton] at hx; subst hx; simp)
    | expire r hr hl hp => exact quiet [_] rfl (by intro x hx e t; simp only [List.mem_singleton] at hx; subst hx; simp)
    | finish j ret hj t0 ht =>
      by_cases hk : j.svc = svc ∧ j.t.r.eventId = eid ∧ ret = .ok
      · obtain ⟨rfl, rfl, rfl⟩ := hk
        have hrow := hh j hj
        have hsvc := hi.copies.busy j hj
        refine ⟨fun _ => ⟨?_, ?_⟩, ?_⟩
        · rw [← hsvc]; exact List.mem_cons_of_mem _ (hi.trail.rows _ hrow)
        · intro r hr e1 e2
          rcases mem_saveRec.1 hr with ⟨rfl, -⟩ | ⟨hr, hne⟩
          · simp [afterCall]
          · exact absurd ⟨by rw [e1, hsvc], e2⟩ (key_ne hi.schema hr hrow hne)
        · refine List.pairwise_cons.2 ⟨?_, ih.2⟩
          intro a ha hd
          rfl
      · exact quiet [_] rfl (by
          intro x hx e t; simp only [List.mem_singleton] at hx; subst hx
          simp only [ne_eq, Log.returned.injEq, not_and]
          intro h1 h2 h3 h4; exact absurd ⟨h1, h2, h4⟩ hk)
    | _ => exact quiet [] rfl (by simp)

/-- **C46 (partial)** Once a successful handling is recorded, the handler is not called for this record again by any worker of this service, provided no worker acts on a stale copy (`fresh`: when a worker locks a record, the
record is as it read it). The log is latest first. Without the assumption the property is false (`C46_handled_twice`). -/
theorem C46_not_again_partial {c : Cfg} {pol : Pol} (hfresh : pol.fresh = true) {s : State} (h : Reachable c pol s) (svc eid : Nat) :
    s.log.Pairwise fun later earlier => (∃ e t, earlier = .returned svc eid e .ok t true) → ∀ e t, later ≠ .called svc eid e t := by
  refine (settled_done hfresh h (svc := svc) (eid := eid)).2.imp ?_
  intro a b hab hb e t ha
  have := hab hb
  rw [ha] at this
  simp [Log.isCall] at this

/-! ## C41 -/

/-- **C41** The number of calls, when no worker acts on a stale copy and no outcome is lost. A record that is marked failed was called exactly `Limit + 2` times (`LimitRetry`, `IntervalRetry`), every call failed, and it is
never called again. -/
theorem C41_limit {c : Cfg} {pol : Pol} (hfresh : pol.fresh = true) (hloss : pol.lossless = true) {L : Int} (hL : -1 ≤ L) (hst : c.strategy = limitRetry L ∨ ∃ d, c.strategy = intervalRetry d L) {s : State}
    (h : Reachable c pol s) {r : Rec} (hr : r ∈ s.db.recs) (hf : r.status = .failed) {s' : State} (hs : Steps c pol s s') :
    (calls s'.log r.service r.eventId : Int) = L + 2 ∧ calls s.log r.service r.eventId = failures s.log r.service r.eventId := by
  have hcount : Counting c.strategy := by
    rcases hst with hst | ⟨d, hst⟩ <;> rw [hst]
    · exact counting_limitRetry L
    · exact counting_intervalRetry d L
  have hi := inv_reachable h
  have hh := held_reachable hfresh h
  have he := exact_reachable hfresh hloss hcount h
  have hset : Settled s r.service r.eventId := by
    refine ⟨hi.trail.rows r hr, ?_⟩
    intro x hx e1 e2 hx'
    have : x = r := List.inj_on_of_nodup_map hi.schema.keys hx hr (by simp [e1, e2])
    rw [this, hf] at hx'; cases hx'
  rw [(settled_steps hfresh hi hh hset hs).2]
  have hnorun : running s r.service r.eventId = 0 := by
    refine List.countP_eq_zero.2 ?_
    intro j hj hk
    simp only [decide_eq_true_eq] at hk
    have := hi.copies.init _ (.inr (.inr ⟨j, hj, rfl⟩))
    exact hset.2 _ (hh j hj) (by rw [hi.copies.busy j hj, hk.1]) hk.2 this
  obtain ⟨h1, h2, ⟨now, h3⟩⟩ := (he.rows r hr).failed hf
  have h4 := (he.rows r hr).allowed
  have h5 := he.total r.service r.eventId
  have hupper : (r.retry : Int) ≤ L + 1 := by
    by_contra hc
    obtain ⟨now, h6⟩ := h4 (r.retry - 1) (by omega)
    apply h6
    rcases hst with hst | ⟨d, hst⟩ <;> rw [hst]
    · unfold limitRetry; rw [if_pos (by omega)]
    · unfold intervalRetry; rw [if_pos (by omega)]
  have hlower : L < (r.retry : Int) := by
    rcases hst with hst | ⟨d, hst⟩ <;> rw [hst] at h3
    · unfold limitRetry at h3; split at h3
      · omega
      · cases h3
    · unfold intervalRetry at h3; split at h3
      · omega
      · cases h3
  omega

/-- **C41** The same with `CustomRetry`: exactly `len(Intervals) + 1` calls. -/
theorem C41_custom {c : Cfg} {pol : Pol} (hfresh : pol.fresh = true) (hloss : pol.lossless = true) {ds : List Nat} (hst : c.strategy = customRetry ds) {s : State}
    (h : Reachable c pol s) {r : Rec} (hr : r ∈ s.db.recs) (hf : r.status = .failed) {s' : State} (hs : Steps c pol s s') :
    calls s'.log r.service r.eventId = ds.length + 1 ∧ calls s.log r.service r.eventId = failures s.log r.service r.eventId := by
  have hcount : Counting c.strategy := by rw [hst]; exact counting_customRetry ds
  have hi := inv_reachable h
  have hh := held_reachable hfresh h
  have he := exact_reachable hfresh hloss hcount h
  have hset : Settled s r.service r.eventId := by
    refine ⟨hi.trail.rows r hr, ?_⟩
    intro x hx e1 e2 hx'
    have : x = r := List.inj_on_of_nodup_map hi.schema.keys hx hr (by simp [e1, e2])
    rw [this, hf] at hx'; cases hx'
  rw [(settled_steps hfresh hi hh hset hs).2]
  have hnorun : running s r.service r.eventId = 0 := by
    refine List.countP_eq_zero.2 ?_
    intro j hj hk
    simp only [decide_eq_true_eq] at hk
    have := hi.copies.init _ (.inr (.inr ⟨j, hj, rfl⟩))
    exact hset.2 _ (hh j hj) (by rw [hi.copies.busy j hj, hk.1]) hk.2 this
  obtain ⟨h1, h2, ⟨now, h3⟩⟩ := (he.rows r hr).failed hf
  have h4 := (he.rows r hr).allowed
  have h5 := he.total r.service r.eventId
  have hupper : r.retry ≤ ds.length := by
    by_contra hc
    obtain ⟨now, h6⟩ := h4 (r.retry - 1) (by omega)
    apply h6
    rw [hst]; unfold customRetry; rw [List.getElem?_eq_none (by omega)]
  have hlower : ds.length ≤ r.retry := by
    rw [hst] at h3; unfold customRetry at h3; split at h3
    · rename_i h7; exact List.getElem?_eq_none_iff.1 h7
    · cases h3
  omega

/-- **C41** As long as the strategy allows a retry the record stays pending, with as many calls as failures (plus the one under way); after the last allowed failure it is not pending any more. -/
theorem C41_pending {c : Cfg} {pol : Pol} (hfresh : pol.fresh = true) (hloss : pol.lossless = true) (hcount : Counting c.strategy) {s : State} (h : Reachable c pol s) {r : Rec} (hr : r ∈ s.db.recs)
    (hf : r.status = .init) : calls s.log r.service r.eventId = failures s.log r.service r.eventId + running s r.service r.eventId ∧ successes s.log r.service r.eventId = 0 ∧
      ∀ i < failures s.log r.service r.eventId, ∃ now, c.strategy i now ≠ none := by
  have he := exact_reachable hfresh hloss hcount h
  obtain ⟨h1, h2⟩ := (he.rows r hr).init hf
  have h3 := he.total r.service r.eventId
  refine ⟨by omega, h1, ?_⟩
  rw [h2]; exact (he.rows r hr).allowed

/-! ## C42 -/

/-- **C42** A worker never calls a handler before the time its copy of the record says; no assumption on workers. With `fresh` the copy is the record. -/
theorem C42_not_before_next {c : Cfg} {pol : Pol} {s : State} (h : Reachable c pol s) {j : Job} (hj : j ∈ s.busy) : j.t.r.next ≤ s.now + pol.ahead ∧ (pol.fresh = true → j.t.r ∈ s.db.recs) :=
  ⟨(inv_reachable h).trail.due _ (.inr (.inr ⟨j, hj, rfl⟩)), fun hf => held_reachable hf h j hj⟩

theorem LateEnough.mono {d : Nat → Nat} {log : List Log} {svc eid t t' : Nat} (h : LateEnough d log svc eid t) (ht : t ≤ t') : LateEnough d log svc eid t' :=
  fun l1 l2 e ret t1 hl hr => (h l1 l2 e ret t1 hl hr).trans ht

theorem lateEnough_cons {d : Nat → Nat} {log : List Log} {x : Log} {svc eid t : Nat} :
    LateEnough d (x :: log) svc eid t ↔ LateEnough d log svc eid t ∧ ∀ e ret t1, x = .returned svc eid e ret t1 true → ret ≠ .ok → t1 + d (failures log svc eid) ≤ t := by
  constructor
  · intro h
    refine ⟨fun l1 l2 e ret t1 hl => h (x :: l1) l2 e ret t1 (by rw [hl]; rfl), fun e ret t1 hx => h [] log e ret t1 (by rw [hx]; rfl)⟩
  · rintro ⟨h1, h2⟩ l1 l2 e ret t1 hl hr
    cases l1 with
    | nil => cases hl; exact h2 e ret t1 rfl hr
    | cons y l1 => cases hl; exact h1 l1 l2 e ret t1 rfl hr

theorem lateEnough_append {d : Nat → Nat} {l log : List Log} {svc eid t : Nat} (h : LateEnough d log svc eid t) (hl : ∀ x ∈ l, ∀ e ret t1, x ≠ .returned svc eid e ret t1 true) :
    LateEnough d (l ++ log) svc eid t := by
  induction l with
  | nil => exact h
  | cons x l ih =>
    rw [List.cons_append, lateEnough_cons]
    exact ⟨ih fun y hy => hl y (by simp [hy]), fun e ret t1 hx => absurd hx (hl x (by simp) e ret t1)⟩

theorem backoff {c : Cfg} {pol : Pol} (hfresh : pol.fresh = true) (hcount : Counting c.strategy) {d : Nat → Nat} (hd : WaitsAtLeast c.strategy d) (hor : pol.lossless = true ∨ ∀ n m, d n = d m) {s : State}
    (h : Reachable c pol s) : (∀ r ∈ s.db.recs, r.status = .init → LateEnough d s.log r.service r.eventId r.next) ∧
      ∀ l1 l2 svc eid e t, s.log = l1 ++ .called svc eid e t :: l2 → LateEnough d l2 svc eid (t + pol.ahead) := by
  induction h with
  | init => exact ⟨by simp [State.init], by intro l1 l2 svc eid e t h; simp [State.init] at h⟩
  | @step s s' h1 hst ih =>
    have hi := inv_reachable h1
    have hh := held_reachable hfresh h1
    have cons : ∀ x, (∀ svc eid e t, x ≠ Log.called svc eid e t) → ∀ l1 l2 svc eid e t, x :: s.log = l1 ++ .called svc eid e t :: l2 → LateEnough d l2 svc eid (t + pol.ahead) := by
      intro x hx l1 l2 svc eid e t hl
      cases l1 with
      | nil => cases hl; exact absurd rfl (hx _ _ _ _)
      | cons y l1 => simp only [List.cons_append, List.cons.injEq] at hl; exact ih.2 l1 l2 svc eid e t hl.2
    have keep : (∀ r ∈ s'.db.recs, r ∈ s.db.recs) → s'.log = s.log → (∀ r ∈ s'.db.recs, r.status = .init → LateEnough d s'.log r.service r.eventId r.next) ∧
      ∀ l1 l2 svc eid e t, s'.log = l1 ++ .called svc eid e t :: l2 → LateEnough d l2 svc eid (t + pol.ahead) := by
      intro hr hl
      rw [hl]
      exact ⟨fun r hr' => ih.1 r (hr r hr'), ih.2⟩
    cases hst with
    | register sv =>
      refine keep ?_ rfl
      have : (register s.db sv).recs = s.db.recs := by unfold register; split <;> rfl
      intro r hr; simpa [this] using hr
    | dispRecs ps sv todo hps hu =>
      constructor
      · intro r hr hinit
        rcases List.mem_append.1 hr with hr | hr
        · exact lateEnough_append (ih.1 r hr hinit) (by intro x hx e ret t1; obtain ⟨p, -, rfl⟩ := List.mem_map.1 hx; simp)
        · obtain ⟨p, hp, hf⟩ := newRecs_fresh hr
          have hns := hi.disps.lis _ _ hps p hp sv (by simp)
          refine lateEnough_append ?_ (by intro x hx e ret t1; obtain ⟨p, -, rfl⟩ := List.mem_map.1 hx; simp)
          intro l1 l2 e ret t1 hl hr'
          exfalso
          apply hns
          have := hi.trail.returned r.service r.eventId e ret t1 true (by rw [hl]; simp)
          rwa [hf.1, hf.2.1] at this
      · intro l1 l2 svc eid e t hl
        have : ∃ l1', s.log = l1' ++ .called svc eid e t :: l2 := by
          rcases List.append_eq_append_iff.1 hl with ⟨a, h2, h3⟩ | ⟨a, h2, h3⟩
          · exact ⟨a, h3⟩
          · cases a with
            | nil => exact ⟨[], by simpa using h3.symm⟩
            | cons y a =>
              exfalso
              simp only [List.cons_append, List.cons.injEq] at h3
              have : y ∈ ps.map (fun p => Log.stored sv p.id) := by rw [h2]; simp
              obtain ⟨p, -, rfl⟩ := List.mem_map.1 this
              simp at h3
        obtain ⟨l1', hl'⟩ := this
        exact ih.2 l1' l2 svc eid e t hl'
    | call j hj hl hx hs hm hf =>
      constructor
      · intro r hr hinit
        rw [lateEnough_cons]
        exact ⟨ih.1 r hr hinit, by simp⟩
      · intro l1 l2 svc eid e t hl'
        cases l1 with
        | nil =>
          cases hl'
          have := ih.1 _ (hf hfresh) hs
          rw [hi.copies.pend j hj] at this
          exact this.mono (hi.trail.due _ (.inr (.inl ⟨j, hj, rfl⟩)))
        | cons y l1 => simp only [List.cons_append, List.cons.injEq] at hl'; exact ih.2 l1 l2 svc eid e t hl'.2
    | blocked j hj hl hx hs hm hf =>
      refine keep ?_ rfl
      intro r hr
      rcases mem_saveRec.1 hr with ⟨rfl, -⟩ | ⟨hr, -⟩
      · exact hf hfresh
      · exact hr
    | finish j ret hj t0 ht =>
      refine ⟨?_, cons _ (by simp)⟩
      have hrow := hh j hj
      have hinit := hi.copies.init _ (.inr (.inr ⟨j, hj, rfl⟩))
      have hsvc := hi.copies.busy j hj
      have hdue := ht.1
      have hold := ih.1 _ hrow hinit
      intro r hr hri
      rcases mem_saveRec.1 hr with ⟨rfl, -⟩ | ⟨hr, hne⟩
      · have hk := afterCall_svc c.strategy t0 j.t.r ret
        rw [hk.1, hk.2.1, lateEnough_cons]
        have key : ret ≠ .ok → (retryStep c.strategy t0 j.t.r).status = .init → t0 + d j.t.r.retry ≤ (retryStep c.strategy t0 j.t.r).next := by
          intro hr hri
          unfold retryStep at hri ⊢
          split
          · rename_i k t hkt
            exact hd _ _ _ _ hkt
          · rename_i hkt
            rw [hkt] at hri
            simp at hri
        have key2 : ret ≠ .ok → t0 + d j.t.r.retry ≤ (afterCall c.strategy t0 j.t.r ret).next := by
          intro hr
          cases ret with
          | ok => exact absurd rfl hr
          | err => exact key (by simp) hri
          | panic => exact key (by simp) hri
        have hnok : ret ≠ .ok := by
          rintro rfl
          simp [afterCall] at hri
        refine ⟨hold.mono ?_, ?_⟩
        · have := key2 hnok; omega
        · intro e ret' t1 heq hr'
          simp only [Log.returned.injEq] at heq
          obtain ⟨-, -, -, rfl, rfl, -⟩ := heq
          have hcnt : d (failures s.log j.t.r.service j.t.r.eventId) = d j.t.r.retry := by
            rcases hor with hloss | hor
            · rw [(((exact_reachable hfresh hloss hcount h1).rows _ hrow).init hinit).2]
            · exact hor _ _
          rw [hcnt]; exact key2 hnok
      · rw [(afterCall_svc _ _ _ _).2.2] at hne
        have hk := key_ne hi.schema hr hrow hne
        rw [lateEnough_cons]
        refine ⟨ih.1 r hr hri, ?_⟩
        intro e ret' t1 heq
        simp only [Log.returned.injEq] at heq
        exact absurd ⟨by rw [hsvc, heq.1], heq.2.1.symm⟩ hk
    | finishLost j ret hj hp t0 ht =>
      refine ⟨?_, cons _ (by simp)⟩
      intro r hr hri
      rw [lateEnough_cons]
      exact ⟨ih.1 r hr hri, by simp⟩
    | cleanRecs sv b rest hb hl => exact keep (fun r hr => List.mem_of_mem_filter hr) rfl
    | expire r hr hl hp =>
      refine ⟨?_, cons _ (by simp)⟩
      intro x hx hxi
      rw [lateEnough_cons]
      refine ⟨?_, by simp⟩
      rcases mem_saveRec.1 hx with ⟨rfl, -⟩ | ⟨hx, -⟩
      · simp at hxi
      · exact ih.1 x hx hxi
    | _ => exact keep (fun _ h => h) rfl

/-- **C42 (partial)** Back-off: when no worker acts on a stale copy, a call comes at least `d` after every earlier failed call whose outcome was recorded (`IntervalRetry` with interval `d`). False otherwise (`C42_too_early`). -/
theorem C42_interval_partial {c : Cfg} {pol : Pol} (hfresh : pol.fresh = true) {d : Nat} {L : Int} (hst : c.strategy = intervalRetry d L) {s : State} (h : Reachable c pol s) {l1 l2 l3 : List Log} {svc eid t1 t2 : Nat}
    {e e' : EvRow} {ret : Ret} (hlog : s.log = l1 ++ .called svc eid e t2 :: (l2 ++ .returned svc eid e' ret t1 true :: l3)) (hr : ret ≠ .ok) : t1 + d ≤ t2 + pol.ahead := by
  have hc : Counting c.strategy := by rw [hst]; exact counting_intervalRetry d L
  have hw : WaitsAtLeast c.strategy fun _ => d := by
    intro n now c t ht
    rw [hst] at ht; unfold intervalRetry at ht
    split at ht
    · cases ht
    · cases ht; exact Nat.le_refl _
  exact (backoff hfresh hc hw (.inr fun _ _ => rfl) h).2 l1 _ svc eid e t2 hlog l2 l3 e' ret t1 rfl hr

/-- **C42 (partial)** The same per attempt (`CustomRetry`): after the failure with `n` failures before it, at least the `n`-th interval. Moreover no outcome is lost. -/
theorem C42_custom_partial {c : Cfg} {pol : Pol} (hfresh : pol.fresh = true) (hloss : pol.lossless = true) {ds : List Nat} (hst : c.strategy = customRetry ds) {s : State} (h : Reachable c pol s)
    {l1 l2 l3 : List Log} {svc eid t1 t2 : Nat} {e e' : EvRow} {ret : Ret} (hlog : s.log = l1 ++ .called svc eid e t2 :: (l2 ++ .returned svc eid e' ret t1 true :: l3)) (hr : ret ≠ .ok) :
    t1 + ds.getD (failures l3 svc eid) 0 ≤ t2 + pol.ahead := by
  have hc : Counting c.strategy := by rw [hst]; exact counting_customRetry ds
  have hw : WaitsAtLeast c.strategy fun n => ds.getD n 0 := by
    intro n now c t ht
    rw [hst] at ht; unfold customRetry at ht
    split at ht
    · cases ht
    · rename_i x hx
      cases ht
      simp [List.getD, hx]
  exact (backoff hfresh hc hw (.inl hloss) h).2 l1 _ svc eid e t2 hlog l2 l3 e' ret t1 rfl hr

end Ddd.Bus
