import Verif.Spec.Bus
/-!
# C36–C38: dispatching on the MySQL event bus
-/
set_option linter.unusedVariables false
set_option linter.unusedSimpArgs false
namespace Ddd.Bus

theorem newEvents_ev (f t : Nat) (es : List DEv) : (newEvents f t es).map EvRow.ev = es := by
  induction es generalizing f with
  | nil => rfl
  | cons e es ih => simp [newEvents, ih]

theorem newEvents_length (f t : Nat) (es : List DEv) : (newEvents f t es).length = es.length := by
  rw [← List.length_map (f := EvRow.ev), newEvents_ev]

theorem newEvents_ids (f t : Nat) (es : List DEv) : (newEvents f t es).map EvRow.id = List.range' f es.length := by
  induction es generalizing f with
  | nil => rfl
  | cons e es ih => simp [newEvents, ih, List.range'_succ]

theorem mem_newEvents {f t : Nat} {es : List DEv} {p : EvRow} (h : p ∈ newEvents f t es) : p.transId = t ∧ f ≤ p.id ∧ p.id < f + es.length := by
  have h1 : p.id ∈ (newEvents f t es).map EvRow.id := List.mem_map_of_mem h
  rw [newEvents_ids, List.mem_range'_1] at h1
  refine ⟨?_, h1⟩
  clear h1
  induction es generalizing f with
  | nil => simp [newEvents] at h
  | cons e es ih =>
    simp only [newEvents, List.mem_cons] at h
    rcases h with rfl | h
    · rfl
    · exact ih h

theorem newRecs_fresh {f s : Nat} {ps : List EvRow} {r : Rec} (h : r ∈ newRecs f s ps) : ∃ p ∈ ps, FreshRecord r s p := by
  induction ps generalizing f with
  | nil => simp [newRecs] at h
  | cons p ps ih =>
    simp only [newRecs, List.mem_cons] at h
    rcases h with rfl | h
    · exact ⟨p, by simp, by simp [FreshRecord]⟩
    · obtain ⟨q, hq, h⟩ := ih h
      exact ⟨q, by simp [hq], h⟩

theorem newRecs_ids (f s : Nat) (ps : List EvRow) : (newRecs f s ps).map Rec.id = List.range' f ps.length := by
  induction ps generalizing f with
  | nil => rfl
  | cons e es ih => simp [newRecs, ih, List.range'_succ]

theorem newRecs_eventIds (f s : Nat) (ps : List EvRow) : (newRecs f s ps).map Rec.eventId = ps.map EvRow.id := by
  induction ps generalizing f with
  | nil => rfl
  | cons e es ih => simp [newRecs, ih]

theorem newRecs_service {f s : Nat} {ps : List EvRow} {r : Rec} (h : r ∈ newRecs f s ps) : r.service = s := by
  obtain ⟨p, _, h⟩ := newRecs_fresh h; exact h.1

theorem newRecs_count {f s : Nat} {ps : List EvRow} (hn : (ps.map EvRow.id).Nodup) {p : EvRow} (hp : p ∈ ps) (s' : Nat) :
    ((newRecs f s ps).countP fun r => decide (r.service = s' ∧ r.eventId = p.id)) = if s = s' then 1 else 0 := by
  split
  · rename_i h
    subst h
    have : ((newRecs f s ps).countP fun r => decide (r.service = s ∧ r.eventId = p.id)) = ((newRecs f s ps).map Rec.eventId).count p.id := by
      rw [List.count, List.countP_map]
      apply List.countP_congr
      intro r hr
      simp [newRecs_service hr]
    rw [this, newRecs_eventIds]
    exact List.count_eq_one_of_mem hn (List.mem_map_of_mem hp)
  · rename_i h
    rw [List.countP_eq_zero]
    intro r hr
    simp [newRecs_service hr, h]

theorem insertAllRecs_frame (ps : List EvRow) (ss : List Nat) (db : DB) :
    (insertAllRecs ps ss db).events = db.events ∧ (insertAllRecs ps ss db).services = db.services ∧ (insertAllRecs ps ss db).txs = db.txs ∧
      (insertAllRecs ps ss db).nextEv = db.nextEv ∧ (insertAllRecs ps ss db).nextTx = db.nextTx := by
  induction ss generalizing db with
  | nil => simp [insertAllRecs]
  | cons s ss ih => simpa [insertAllRecs, insertRecs] using ih (insertRecs db s ps)

theorem insertAllRecs_recorded (ps : List EvRow) (hn : (ps.map EvRow.id).Nodup) (ss : List Nat) (hs : ss.Nodup) (db : DB) :
    RecordedFor db (insertAllRecs ps ss db) ss ps := by
  induction ss generalizing db with
  | nil => exact ⟨[], by simp [insertAllRecs], by simp, by simp⟩
  | cons s ss ih =>
    obtain ⟨rs, h1, h2, h3⟩ := ih (List.nodup_cons.1 hs).2 (insertRecs db s ps)
    refine ⟨newRecs db.nextRec s ps ++ rs, by rw [insertAllRecs, h1]; simp [insertRecs], ?_, ?_⟩
    · intro r hr
      rcases List.mem_append.1 hr with hr | hr
      · obtain ⟨p, hp, h⟩ := newRecs_fresh hr
        exact ⟨s, by simp, p, hp, h⟩
      · obtain ⟨s', hs', h⟩ := h2 r hr
        exact ⟨s', by simp [hs'], h⟩
    · intro s' hs' p hp
      rw [List.countP_append, newRecs_count hn hp]
      rcases List.mem_cons.1 hs' with rfl | hs'
      · have : (rs.countP fun r => decide (r.service = s' ∧ r.eventId = p.id)) = 0 := by
          rw [List.countP_eq_zero]
          intro r hr
          obtain ⟨s2, hs2, q, hq, h⟩ := h2 r hr
          have : s' ≠ s2 := fun hh => (List.nodup_cons.1 hs).1 (hh ▸ hs2)
          simp only [decide_eq_true_eq, not_and]
          intro hh; exact absurd (hh.symm.trans h.1) this
        rw [this, if_pos rfl]
      · have : s ≠ s' := fun hh => (List.nodup_cons.1 hs).1 (hh ▸ hs')
        rw [if_neg this, h3 s' hs' p hp]

/-- **C36** A `Dispatch` that returns nil stored every event once and created exactly one pending delivery record per registered service and event; nothing else changed. -/
theorem C36_dispatch_effect {db db' : DB} (hv : Valid db) {tid : Nat} {es : List DEv} {n : Nat} (h : dispatch db tid es n = (db', true)) :
    ∃ ps, StoredAs db db' tid es ps ∧ RecordedFor db db' db.services ps ∧ db'.services = db.services ∧ db'.txs = db.txs := by
  unfold dispatch at h
  split at h
  · simp at h
  · split at h
    · simp at h
    · simp at h
    · rename_i n
      simp only [Prod.mk.injEq, decide_eq_true_eq] at h
      obtain ⟨rfl, hl⟩ := h
      rw [List.take_of_length_le hl]
      obtain ⟨f1, f2, f3, -, -⟩ := insertAllRecs_frame (newEvents db.nextEv tid es) db.services (insertEvents db tid es)
      have hnd : ((newEvents db.nextEv tid es).map EvRow.id).Nodup := by
        rw [newEvents_ids]; exact List.nodup_range'
      refine ⟨newEvents db.nextEv tid es, ⟨by rw [f1]; rfl, newEvents_ev .., fun p hp => (mem_newEvents hp).1, hnd, ?_⟩, ?_, by rw [f2]; rfl, by rw [f3]; rfl⟩
      · intro p hp e he hh
        have := (mem_newEvents hp).2.1
        have := hv.evFresh e he
        omega
      · obtain ⟨rs, h1, h2⟩ := insertAllRecs_recorded _ hnd db.services hv.svcs (insertEvents db tid es)
        exact ⟨rs, h1, h2⟩

/-- **C36** `Dispatch` of at least one event returns nil if all its statements succeed. -/
theorem C36_dispatch_succeeds {db : DB} {tid : Nat} {es : List DEv} {n : Nat} (he : es ≠ []) (hn : 2 + db.services.length ≤ n) :
    (dispatch db tid es n).2 = true := by
  unfold dispatch
  match n, hn with
  | 0, hn => omega
  | 1, hn => omega
  | n + 2, hn => simp only [if_neg he, decide_eq_true_eq]; omega

/-- the schema guarantees are kept whatever happens during `Dispatch`. -/
theorem valid_insertEvents {db : DB} (hv : Valid db) {tid : Nat} (ht : tid < db.nextTx) (es : List DEv) : Valid (insertEvents db tid es) := by
  refine ⟨?_, ?_, hv.recIds, hv.recFresh, ?_, hv.recKeys, hv.svcs, hv.txIds, hv.txFresh, ?_, hv.txPos⟩
  · simp only [insertEvents, List.map_append, newEvents_ids]
    rw [List.nodup_append]
    refine ⟨hv.evIds, List.nodup_range', ?_⟩
    intro a ha b hb hab
    obtain ⟨e, he, rfl⟩ := List.mem_map.1 ha
    have := hv.evFresh e he
    rw [List.mem_range'_1] at hb
    omega
  · intro e he
    rcases List.mem_append.1 he with he | he
    · have := hv.evFresh e he; simp only [insertEvents]; omega
    · have := (mem_newEvents he).2.2; simpa [insertEvents] using this
  · intro r hr
    have := hv.recEv r hr; simp only [insertEvents]; omega
  · intro e he
    rcases List.mem_append.1 he with he | he
    · exact hv.evTx e he
    · rw [(mem_newEvents he).1]; exact ht

theorem valid_insertRecs {db : DB} (hv : Valid db) {s : Nat} {ps : List EvRow} (hn : (ps.map EvRow.id).Nodup) (hp : ∀ p ∈ ps, p.id < db.nextEv)
    (hnew : ∀ r ∈ db.recs, r.service = s → ∀ p ∈ ps, r.eventId ≠ p.id) : Valid (insertRecs db s ps) := by
  refine ⟨hv.evIds, hv.evFresh, ?_, ?_, ?_, ?_, hv.svcs, hv.txIds, hv.txFresh, hv.evTx, hv.txPos⟩
  · simp only [insertRecs, List.map_append, newRecs_ids]
    rw [List.nodup_append]
    refine ⟨hv.recIds, List.nodup_range', ?_⟩
    intro a ha b hb hab
    obtain ⟨e, he, rfl⟩ := List.mem_map.1 ha
    have := hv.recFresh e he
    rw [List.mem_range'_1] at hb
    omega
  · intro r hr
    rcases List.mem_append.1 hr with hr | hr
    · have := hv.recFresh r hr; simp only [insertRecs]; omega
    · have h1 : r.id ∈ (newRecs db.nextRec s ps).map Rec.id := List.mem_map_of_mem hr
      rw [newRecs_ids, List.mem_range'_1] at h1
      exact h1.2
  · intro r hr
    rcases List.mem_append.1 hr with hr | hr
    · exact hv.recEv r hr
    · obtain ⟨p, hp1, hp2⟩ := newRecs_fresh hr
      rw [hp2.2.1]; exact hp p hp1
  · simp only [insertRecs, List.map_append]
    rw [List.nodup_append]
    refine ⟨hv.recKeys, ?_, ?_⟩
    · apply List.Nodup.of_map Prod.snd
      simp only [List.map_map]
      have : (Prod.snd ∘ fun r : Rec => (r.service, r.eventId)) = Rec.eventId := rfl
      rw [this, newRecs_eventIds]; exact hn
    · intro a ha b hb hab
      obtain ⟨r, hr, rfl⟩ := List.mem_map.1 ha
      obtain ⟨r', hr', rfl⟩ := List.mem_map.1 hb
      obtain ⟨p, hp1, hp2⟩ := newRecs_fresh hr'
      simp only [Prod.mk.injEq] at hab
      exact hnew r hr (hab.1.trans hp2.1) p hp1 (hab.2.trans hp2.2.1)

/-- an empty database with these services -/
def emptyDB (services : List Nat) : DB := { events := [], recs := [], services := services, txs := [], nextEv := 1, nextRec := 1, nextTx := 1 }

theorem valid_emptyDB {ss : List Nat} (h : ss.Nodup) : Valid (emptyDB ss) := by
  constructor <;> simp [emptyDB, h]

/-- non-vacuity: two services, two events -/
example : ∃ db', dispatch (emptyDB [7, 8]) 0 [⟨1, 5, .normal, 3, 0⟩, ⟨2, 5, .fifo, 4, 1⟩] 100 = (db', true) ∧ db'.events.length = 2 ∧ db'.recs.length = 4 :=
  ⟨_, rfl, rfl, rfl⟩

/-! ## C37 -/

/-- **C37** (partial) For every crash point: the event rows are stored all or none, and the delivery records of each service all or none, service by service. Missing: all or nothing. -/
theorem C37_per_statement_partial {db : DB} (hv : Valid db) (tid : Nat) (es : List DEv) (n : Nat) :
    (dispatch db tid es n).1 = db ∨
    ∃ ps ss, StoredAs db (dispatch db tid es n).1 tid es ps ∧ ss <+: db.services ∧ RecordedFor db (dispatch db tid es n).1 ss ps ∧
      (dispatch db tid es n).1.services = db.services ∧ (dispatch db tid es n).1.txs = db.txs := by
  unfold dispatch
  have hnd : ((newEvents db.nextEv tid es).map EvRow.id).Nodup := by rw [newEvents_ids]; exact List.nodup_range'
  have hne : ∀ p ∈ newEvents db.nextEv tid es, ∀ e ∈ db.events, p.id ≠ e.id := by
    intro p hp e he hh
    have := (mem_newEvents hp).2.1
    have := hv.evFresh e he
    omega
  split
  · exact .inl rfl
  · split
    · exact .inl rfl
    · exact .inr ⟨_, [], ⟨rfl, newEvents_ev .., fun p hp => (mem_newEvents hp).1, hnd, hne⟩, List.nil_prefix, ⟨[], by simp [insertEvents], by simp, by simp⟩, rfl, rfl⟩
    · rename_i n
      right
      obtain ⟨f1, f2, f3, -, -⟩ := insertAllRecs_frame (newEvents db.nextEv tid es) (db.services.take n) (insertEvents db tid es)
      refine ⟨newEvents db.nextEv tid es, db.services.take n, ⟨by rw [f1]; rfl, newEvents_ev .., fun p hp => (mem_newEvents hp).1, hnd, hne⟩, List.take_prefix .., ?_, by rw [f2]; rfl, by rw [f3]; rfl⟩
      obtain ⟨rs, h1, h2⟩ := insertAllRecs_recorded _ hnd _ (hv.svcs.sublist (List.take_sublist n _)) (insertEvents db tid es)
      exact ⟨rs, h1, h2⟩

/-- **C37** `Dispatch` returns nil only if everything was stored; when it returns an error something may be stored nevertheless. -/
theorem C37_success_means_all {db : DB} {tid : Nat} {es : List DEv} {n : Nat} :
    (dispatch db tid es n).2 = true ↔ es ≠ [] ∧ 2 + db.services.length ≤ n := by
  constructor
  · unfold dispatch
    split
    · simp
    · rename_i h
      split
      · simp
      · simp
      · simp only [decide_eq_true_eq]; intro h1; exact ⟨h, by omega⟩
  · rintro ⟨h1, h2⟩; exact C36_dispatch_succeeds h1 h2

/-- no operation except a dispatch creates delivery records: `C37_lost` below. -/
def NoDelivery (db : DB) (i : Nat) : Prop := ∀ r ∈ db.recs, r.eventId ≠ i

/-- **C37** is false of the code: the inserts of `Dispatch` do not run on the database transaction it opens (`eventbus.go:272-297` uses `e.getDB(ctx)` instead of `tx`), so when the process stops after
the first insert, the event is stored without any delivery record although a service is registered. -/
theorem C37_not_atomic : ∃ db es n, Valid db ∧ db.services ≠ [] ∧ (dispatch db 0 es n).2 = false ∧
    (dispatch db 0 es n).1.events.map EvRow.ev = es ∧ es ≠ [] ∧ ∀ e ∈ (dispatch db 0 es n).1.events, NoDelivery (dispatch db 0 es n).1 e.id :=
  ⟨emptyDB [7], [⟨1, 5, .normal, 3, 0⟩], 1, valid_emptyDB (by decide), by decide, rfl, rfl, by decide, by unfold NoDelivery; decide +kernel⟩

/-- **C37** likewise one service can get its records and another one not. -/
theorem C37_half_the_services : ∃ db es n, Valid db ∧ (dispatch db 0 es n).2 = false ∧ ∃ e ∈ (dispatch db 0 es n).1.events,
    Pending (dispatch db 0 es n).1 7 e.id ∧ ¬ Pending (dispatch db 0 es n).1 8 e.id ∧ db.services = [7, 8] :=
  ⟨emptyDB [7, 8], [⟨1, 5, .normal, 3, 0⟩], 3, valid_emptyDB (by decide), rfl, ⟨1, ⟨1, 5, .normal, 3, 0⟩, 0⟩, by decide +kernel,
    ⟨⟨1, 7, 1, 0, .init, 3, 3⟩, by decide +kernel, rfl, rfl, rfl⟩, by
      rintro ⟨r, hr, h1, -⟩
      revert r
      decide +kernel, rfl⟩

end Ddd.Bus
