import Verif.Proofs.BusFresh
/-!
# Retry counts, back-off, and records that are done, under all interleavings
-/
set_option linter.unusedVariables false
set_option linter.unusedSimpArgs false
namespace Ddd.Bus

theorem calls_cons (x : Log) (l : List Log) (svc eid : Nat) : calls (x :: l) svc eid = calls l svc eid + if x.isCall svc eid then 1 else 0 := List.countP_cons
theorem successes_cons (x : Log) (l : List Log) (svc eid : Nat) : successes (x :: l) svc eid = successes l svc eid + if x.isDone svc eid then 1 else 0 := List.countP_cons

theorem counts_stored (ps : List EvRow) (sv : Nat) (l : List Log) (svc eid : Nat) :
    calls (ps.map (fun p => .stored sv p.id) ++ l) svc eid = calls l svc eid ∧ successes (ps.map (fun p => .stored sv p.id) ++ l) svc eid = successes l svc eid ∧
    failures (ps.map (fun p => .stored sv p.id) ++ l) svc eid = failures l svc eid := by
  induction ps with
  | nil => simp
  | cons p ps ih =>
    simp only [List.map_cons, List.cons_append, calls_cons, successes_cons, failures_cons, Log.isCall, Log.isDone, Log.isFail]
    simpa using ih

/-- the row of a delivery record that is never called again -/
def Settled (s : State) (svc eid : Nat) : Prop := Log.stored svc eid ∈ s.log ∧ ∀ r ∈ s.db.recs, r.service = svc → r.eventId = eid → r.status ≠ .init

theorem settled_step {c : Cfg} {pol : Pol} (hfresh : pol.fresh = true) {s s' : State} (hi : Inv pol.ahead s) (hh : Held s) {svc eid : Nat} (h : Settled s svc eid) (hst : Step c pol s s') :
    Settled s' svc eid ∧ ∃ l, s'.log = l ++ s.log ∧ ∀ x ∈ l, x.isCall svc eid = false := by
  obtain ⟨h1, h2⟩ := h
  have keep : ∀ s' : State, s'.log = s.log → (∀ r ∈ s'.db.recs, r ∈ s.db.recs) → Settled s' svc eid ∧ ∃ l, s'.log = l ++ s.log ∧ ∀ x ∈ l, x.isCall svc eid = false := by
    intro s' hl hr
    exact ⟨⟨by rw [hl]; exact h1, fun r hr' => h2 r (hr r hr')⟩, [], by rw [hl]; rfl, by simp⟩
  cases hst with
  | register sv =>
    refine keep _ rfl ?_
    have : (register s.db sv).recs = s.db.recs := by unfold register; split <;> rfl
    intro r hr; simpa [this] using hr
  | dispRecs ps sv todo hps hu =>
    refine ⟨⟨List.mem_append.2 (.inr h1), ?_⟩, _, rfl, ?_⟩
    · intro r hr hs he
      rcases List.mem_append.1 hr with hr | hr
      · exact h2 r hr hs he
      · obtain ⟨p, hp, hf⟩ := newRecs_fresh hr
        exfalso
        refine hi.disps.lis _ _ hps p hp sv (by simp) ?_
        have e1 : sv = svc := by rw [← hf.1, hs]
        have e2 : p.id = eid := by rw [← hf.2.1, he]
        rw [e1, e2]; exact h1
    · intro x hx
      obtain ⟨p, -, rfl⟩ := List.mem_map.1 hx
      rfl
  | call j hj hl hx hs hm hf =>
    refine ⟨⟨List.mem_cons_of_mem _ h1, h2⟩, [_], rfl, ?_⟩
    intro x hx
    simp only [List.mem_singleton] at hx
    subst hx
    simp only [Log.isCall, decide_eq_false_iff_not, not_and]
    intro e1 e2
    exact h2 _ (hf hfresh) (by rw [hi.copies.pend j hj, e1]) e2 hs
  | blocked j hj hl hx hs hm hf =>
    refine keep _ rfl ?_
    intro r hr
    rcases mem_saveRec.1 hr with ⟨rfl, -⟩ | ⟨hr, -⟩
    · exact hf hfresh
    · exact hr
  | finish j ret hj t0 ht =>
    refine ⟨⟨List.mem_cons_of_mem _ h1, ?_⟩, [_], rfl, ?_⟩
    · intro r hr hs he
      rcases mem_saveRec.1 hr with ⟨rfl, -⟩ | ⟨hr, -⟩
      · have := afterCall_svc c.strategy t0 j.t.r ret
        exact absurd (hi.copies.init _ (.inr (.inr ⟨j, hj, rfl⟩))) (h2 _ (hh j hj) (by rw [← this.1, hs]) (by rw [← this.2.1, he]))
      · exact h2 r hr hs he
    · intro x hx; simp only [List.mem_singleton] at hx; subst hx; rfl
  | finishLost j ret hj hp t0 ht =>
    refine ⟨⟨List.mem_cons_of_mem _ h1, h2⟩, [_], rfl, ?_⟩
    intro x hx; simp only [List.mem_singleton] at hx; subst hx; rfl
  | cleanRecs sv b rest hb hl => exact keep _ rfl fun r hr => List.mem_of_mem_filter hr
  | expire r hr hl hp =>
    refine ⟨⟨List.mem_cons_of_mem _ h1, ?_⟩, [_], rfl, ?_⟩
    · intro x hx hs he
      rcases mem_saveRec.1 hx with ⟨rfl, -⟩ | ⟨hx, -⟩
      · simp
      · exact h2 x hx hs he
    · intro x hx; simp only [List.mem_singleton] at hx; subst hx; rfl
  | _ => exact keep _ rfl fun _ h => h

theorem inv_steps {c : Cfg} {pol : Pol} {s s' : State} (h : Inv pol.ahead s) (hst : Steps c pol s s') : Inv pol.ahead s' := by
  induction hst with
  | refl => exact h
  | step _ h2 ih => exact inv_step ih h2

theorem held_steps {c : Cfg} {pol : Pol} (hf : pol.fresh = true) {s s' : State} (hi : Inv pol.ahead s) (h : Held s) (hst : Steps c pol s s') : Held s' := by
  induction hst with
  | refl => exact h
  | step h1 h2 ih => exact held_step hf (inv_steps hi h1).once (inv_steps hi h1).copies ih h2

theorem settled_steps {c : Cfg} {pol : Pol} (hfresh : pol.fresh = true) {s s' : State} (hi : Inv pol.ahead s) (hh : Held s) {svc eid : Nat} (h : Settled s svc eid) (hst : Steps c pol s s') :
    Settled s' svc eid ∧ calls s'.log svc eid = calls s.log svc eid := by
  induction hst with
  | refl => exact ⟨h, rfl⟩
  | step h1 h2 ih =>
    obtain ⟨h3, l, h4, h5⟩ := settled_step hfresh (inv_steps hi h1) (held_steps hfresh hi hh h1) ih.1 h2
    refine ⟨h3, ?_⟩
    rw [h4, ← ih.2, calls, calls, List.countP_append, List.countP_eq_zero.2 (by intro x hx; simp [h5 x hx]), Nat.zero_add]

/-! ## exact counts -/

/-- what the counts say about a row -/
structure Counted (st : Strategy) (log : List Log) (r : Rec) : Prop where
  init : r.status = .init → successes log r.service r.eventId = 0 ∧ failures log r.service r.eventId = r.retry
  failed : r.status = .failed → successes log r.service r.eventId = 0 ∧ failures log r.service r.eventId = r.retry + 1 ∧ ∃ now, st r.retry now = none
  allowed : ∀ i < r.retry, ∃ now, st i now ≠ none

theorem Counted.congr {st : Strategy} {log log' : List Log} {r : Rec} (h : Counted st log r) (h1 : successes log' r.service r.eventId = successes log r.service r.eventId)
    (h2 : failures log' r.service r.eventId = failures log r.service r.eventId) : Counted st log' r := by
  refine ⟨?_, ?_, h.allowed⟩
  · rw [h1, h2]; exact h.init
  · rw [h1, h2]; exact h.failed

/-- jobs being handled for a record -/
def running (s : State) (svc eid : Nat) : Nat := s.busy.countP fun j => decide (j.svc = svc ∧ j.t.r.eventId = eid)

structure Exact (st : Strategy) (s : State) : Prop where
  rows : ∀ r ∈ s.db.recs, Counted st s.log r
  total : ∀ svc eid, calls s.log svc eid = failures s.log svc eid + successes s.log svc eid + running s svc eid

theorem running_erase {s s' : State} {j : Job} (hj : j ∈ s.busy) (hb : s'.busy = s.busy.erase j) (svc eid : Nat) :
    running s svc eid = running s' svc eid + if j.svc = svc ∧ j.t.r.eventId = eid then 1 else 0 := by
  unfold running
  rw [hb, (List.perm_cons_erase hj).countP_eq, List.countP_cons]
  simp

theorem counts_zero {a : Nat} {s : State} (ht : Trail a s) {svc eid : Nat} (h : Log.stored svc eid ∉ s.log) : successes s.log svc eid = 0 ∧ failures s.log svc eid = 0 := by
  constructor <;>
  · refine List.countP_eq_zero.2 ?_
    intro x hx hd
    cases x <;> simp [Log.isDone, Log.isFail] at hd
    rename_i a b e r t v
    obtain ⟨rfl, rfl, -⟩ := hd
    exact h (ht.returned _ _ _ _ _ _ hx)

/-- the row after a call -/
theorem counted_afterCall {st : Strategy} (hc : Counting st) {log : List Log} {r : Rec} {svc eid : Nat} {e : EvRow} {ret : Ret} {now : Nat} {sv : Bool} (h : Counted st log r) (h2 : r.status = .init)
    (hs : r.service = svc) (he : r.eventId = eid) : Counted st (.returned svc eid e ret now sv :: log) (afterCall st now r ret) := by
  obtain ⟨h3, h4⟩ := h.init h2
  subst hs he
  have hretry : ∀ ret, ret ≠ .ok → Counted st (.returned r.service r.eventId e ret now sv :: log) (retryStep st now r) := by
    intro ret hr
    have hf : failures (.returned r.service r.eventId e ret now sv :: log) r.service r.eventId = r.retry + 1 := by rw [failures_cons, h4]; simp [Log.isFail, hr]
    have hd : successes (.returned r.service r.eventId e ret now sv :: log) r.service r.eventId = 0 := by rw [successes_cons, h3]; simp [Log.isDone, hr]
    unfold retryStep
    split
    · rename_i k t hk
      have := hc _ _ _ _ hk
      refine ⟨fun _ => ⟨hd, by simp only [hf, this]⟩, by simp [h2], ?_⟩
      intro i hi
      simp only [this] at hi
      rcases Nat.lt_succ_iff_lt_or_eq.1 hi with hi | rfl
      · exact h.allowed i hi
      · exact ⟨now, by rw [hk]; simp⟩
    · rename_i hk
      exact ⟨by simp, fun _ => ⟨hd, hf, now, hk⟩, h.allowed⟩
  cases ret with
  | ok => exact ⟨by simp [afterCall], by simp [afterCall], h.allowed⟩
  | err => exact hretry _ (by simp)
  | panic => exact hretry _ (by simp)

theorem key_ne {s : State} (hsc : Schema s) {x r : Rec} (hx : x ∈ s.db.recs) (hr : r ∈ s.db.recs) (hn : x.id ≠ r.id) : ¬ (x.service = r.service ∧ x.eventId = r.eventId) := by
  rintro ⟨h1, h2⟩
  have : x = r := List.inj_on_of_nodup_map hsc.keys hx hr (by simp [h1, h2])
  exact hn (by rw [this])

theorem exact_step {c : Cfg} {pol : Pol} (hfresh : pol.fresh = true) (hloss : pol.lossless = true) (hcount : Counting c.strategy) {s s' : State} (hi : Inv pol.ahead s) (hh : Held s) (h : Exact c.strategy s)
    (hst : Step c pol s s') : Exact c.strategy s' := by
  have keep : ∀ s' : State, s'.log = s.log → s'.busy = s.busy → (∀ r ∈ s'.db.recs, r ∈ s.db.recs) → Exact c.strategy s' := by
    intro s' hl hb hr
    refine ⟨?_, ?_⟩
    · rw [hl]; exact fun r hr' => h.rows r (hr r hr')
    · intro svc eid; unfold running; rw [hl, hb]; exact h.total svc eid
  cases hst with
  | register sv =>
    refine keep _ rfl rfl ?_
    have : (register s.db sv).recs = s.db.recs := by unfold register; split <;> rfl
    intro r hr; simpa [this] using hr
  | dispRecs ps sv todo hps hu =>
    refine ⟨?_, ?_⟩
    · intro r hr
      have hcs := counts_stored ps sv s.log r.service r.eventId
      rcases List.mem_append.1 hr with hr | hr
      · exact (h.rows r hr).congr hcs.2.1 hcs.2.2
      · obtain ⟨p, hp, hf⟩ := newRecs_fresh hr
        have hz := counts_zero hi.trail (hi.disps.lis _ _ hps p hp sv (by simp))
        rw [← hf.1, ← hf.2.1] at hz
        refine ⟨?_, by rw [hf.2.2.1]; simp, by rw [hf.2.2.2.1]; simp⟩
        intro _
        dsimp only
        rw [hcs.2.1, hcs.2.2, hz.1, hz.2, hf.2.2.2.1]; simp
    · intro svc eid
      have hcs := counts_stored ps sv s.log svc eid
      dsimp only
      rw [hcs.1, hcs.2.1, hcs.2.2]; exact h.total svc eid
  | call j hj hl hx hs hm hf =>
    refine ⟨?_, ?_⟩
    · intro r hr
      refine (h.rows r hr).congr ?_ ?_
      · rw [successes_cons]; simp [Log.isDone]
      · rw [failures_cons]; simp [Log.isFail]
    · intro svc eid
      have h1 := h.total svc eid
      have h2 : running { s with pend := s.pend.erase j, busy := j :: s.busy, log := .called j.svc j.t.r.eventId j.t.e s.now :: s.log } svc eid = running s svc eid + if j.svc = svc ∧ j.t.r.eventId = eid then 1 else 0 := by
        simp only [running, List.countP_cons, decide_eq_true_eq]
      have h3 : Log.isFail svc eid (.called j.svc j.t.r.eventId j.t.e s.now) = false := rfl
      have h4 : Log.isDone svc eid (.called j.svc j.t.r.eventId j.t.e s.now) = false := rfl
      have h5 : (Log.isCall svc eid (.called j.svc j.t.r.eventId j.t.e s.now) = true) = (j.svc = svc ∧ j.t.r.eventId = eid) := by simp [Log.isCall]
      rw [h2, calls_cons, failures_cons, successes_cons]
      simp only [h3, h4, h5]
      by_cases hk : j.svc = svc ∧ j.t.r.eventId = eid <;> simp [hk] <;> omega
  | blocked j hj hl hx hs hm hf =>
    refine keep _ rfl rfl ?_
    intro r hr
    rcases mem_saveRec.1 hr with ⟨rfl, -⟩ | ⟨hr, -⟩
    · exact hf hfresh
    · exact hr
  | finish j ret hj t0 ht =>
    have hrow := hh j hj
    have hinit := hi.copies.init _ (.inr (.inr ⟨j, hj, rfl⟩))
    have hsvc := hi.copies.busy j hj
    refine ⟨?_, ?_⟩
    · intro r hr
      rcases mem_saveRec.1 hr with ⟨rfl, -⟩ | ⟨hr, hne⟩
      · exact counted_afterCall hcount (h.rows _ hrow) hinit hsvc rfl
      · rw [(afterCall_svc _ _ _ _).2.2] at hne
        have hk := key_ne hi.schema hr hrow hne
        rw [hsvc] at hk
        refine (h.rows r hr).congr ?_ ?_
        · rw [successes_cons]; simp only [Log.isDone]; simp; intro h1 h2; exact absurd ⟨h1.symm, h2.symm⟩ hk
        · rw [failures_cons]; simp only [Log.isFail]; simp; intro h1 h2; exact absurd ⟨h1.symm, h2.symm⟩ hk
    · intro svc eid
      have h1 := h.total svc eid
      have h2 := running_erase (s' := { s with busy := s.busy.erase j }) hj rfl svc eid
      dsimp only
      rw [calls_cons, failures_cons, successes_cons]
      have h3 : running { s with busy := s.busy.erase j, db := saveRec s.db (afterCall c.strategy t0 j.t.r ret), log := .returned j.svc j.t.r.eventId j.t.e ret t0 true :: s.log } svc eid = running { s with busy := s.busy.erase j } svc eid := rfl
      rw [h3]
      have h4 : Log.isCall svc eid (.returned j.svc j.t.r.eventId j.t.e ret t0 true) = false := rfl
      have h5 : (Log.isFail svc eid (.returned j.svc j.t.r.eventId j.t.e ret t0 true) = true) = (j.svc = svc ∧ j.t.r.eventId = eid ∧ ret ≠ .ok) := by simp [Log.isFail]
      have h6 : (Log.isDone svc eid (.returned j.svc j.t.r.eventId j.t.e ret t0 true) = true) = (j.svc = svc ∧ j.t.r.eventId = eid ∧ ret = .ok) := by simp [Log.isDone]
      simp only [h4, h5, h6]
      by_cases hk : j.svc = svc ∧ j.t.r.eventId = eid
      · rw [if_pos hk] at h2
        cases ret <;> simp [hk] <;> omega
      · rw [if_neg hk] at h2
        rw [if_neg (show ¬ (j.svc = svc ∧ j.t.r.eventId = eid ∧ ret ≠ .ok) by tauto), if_neg (show ¬ (j.svc = svc ∧ j.t.r.eventId = eid ∧ ret = .ok) by tauto)]
        simp; omega
  | finishLost j ret hj hp t0 ht => rw [hloss] at hp; cases hp
  | crash j hp => rw [hloss] at hp; cases hp
  | cleanRecs sv b rest hb hl => exact keep _ rfl rfl fun r hr => List.mem_of_mem_filter hr
  | expire r hr hl hp =>
    have hcs : ∀ svc eid, calls (Log.expired r.service r.eventId :: s.log) svc eid = calls s.log svc eid ∧ successes (Log.expired r.service r.eventId :: s.log) svc eid = successes s.log svc eid ∧
        failures (Log.expired r.service r.eventId :: s.log) svc eid = failures s.log svc eid := by
      intro svc eid; rw [calls_cons, successes_cons, failures_cons]; simp [Log.isCall, Log.isDone, Log.isFail]
    refine ⟨?_, ?_⟩
    · intro x hx
      rcases mem_saveRec.1 hx with ⟨rfl, -⟩ | ⟨hx, -⟩
      · exact ⟨by simp, by simp, (h.rows r hr).allowed⟩
      · exact (h.rows x hx).congr (hcs _ _).2.1 (hcs _ _).2.2
    · intro svc eid
      dsimp only
      rw [(hcs svc eid).1, (hcs svc eid).2.1, (hcs svc eid).2.2]; exact h.total svc eid
  | _ => exact keep _ rfl rfl fun _ h => h

theorem exact_reachable {c : Cfg} {pol : Pol} (hfresh : pol.fresh = true) (hloss : pol.lossless = true) (hcount : Counting c.strategy) {s : State} (h : Reachable c pol s) : Exact c.strategy s := by
  induction h with
  | init => exact ⟨by simp [State.init], by intro svc eid; simp [State.init, calls, failures, successes, running]⟩
  | step h1 hst ih => exact exact_step hfresh hloss hcount (inv_reachable h1) (held_reachable hfresh h1) ih hst

end Ddd.Bus
