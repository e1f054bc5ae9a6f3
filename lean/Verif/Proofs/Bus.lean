import Verif.Props.BusDispatch
/-!
# Frame lemmas for the MySQL bus
-/
set_option linter.unusedVariables false
set_option linter.unusedSimpArgs false
namespace Ddd.Bus

/-- the columns of a delivery record which never change -/
def Rec.key (r : Rec) : Nat × Nat × Nat := (r.id, r.service, r.eventId)

theorem Rec.key_eq {a b : Rec} : a.key = b.key ↔ a.id = b.id ∧ a.service = b.service ∧ a.eventId = b.eventId := by
  simp [Rec.key]

/-! ## insertion sort -/

theorem mem_isort {α} {r : α → α → Prop} [DecidableRel r] {l : List α} {a : α} : a ∈ l.insertionSort r ↔ a ∈ l :=
  (List.perm_insertionSort r l).mem_iff

/-! ## scanning -/

theorem mem_pendingFrom {db : DB} {svc start : Nat} {r : Rec} :
    r ∈ pendingFrom db svc start ↔ r ∈ db.recs ∧ r.service = svc ∧ r.status = .init ∧ start ≤ r.eventId := by
  simp only [pendingFrom, mem_isort, List.mem_filter, Bool.and_eq_true, beq_iff_eq, decide_eq_true_eq]
  tauto

theorem mem_scanRecs {db : DB} {svc start limit now : Nat} {r : Rec} (h : r ∈ scanRecs db svc start limit now) :
    r ∈ db.recs ∧ r.service = svc ∧ r.status = .init ∧ r.next ≤ now := by
  unfold scanRecs at h
  split at h
  · simp at h
  · have h := List.mem_of_mem_take h
    simp only [List.mem_filter, decide_eq_true_eq] at h
    have := mem_pendingFrom.1 h.1
    exact ⟨this.1, this.2.1, this.2.2.1, h.2⟩

theorem mem_zipWith_tuple {rs : List Rec} {es : List EvRow} {t : Tuple} (h : t ∈ List.zipWith Tuple.mk rs es) : t.r ∈ rs ∧ t.e ∈ es := by
  induction rs generalizing es with
  | nil => simp at h
  | cons r rs ih =>
    cases es with
    | nil => simp at h
    | cons e es =>
      simp only [List.zipWith_cons_cons, List.mem_cons] at h
      rcases h with rfl | h
      · simp
      · have := ih h; simp [this]

theorem mem_pairUp {db : DB} {rs : List Rec} {t : Tuple} (h : t ∈ pairUp db rs) : t.r ∈ rs ∧ t.e ∈ db.events := by
  have := mem_zipWith_tuple h
  simp only [mem_isort, List.mem_filter] at this
  exact ⟨this.1, this.2.1⟩

/-! ## saving -/

theorem saveRec_keys {db : DB} (hn : (db.recs.map Rec.id).Nodup) {r : Rec} (h : r.key ∈ db.recs.map Rec.key) : (saveRec db r).recs.map Rec.key = db.recs.map Rec.key := by
  simp only [saveRec, List.map_map]
  apply List.map_congr_left
  intro x hx
  simp only [Function.comp]
  split
  · rename_i h1
    obtain ⟨y, hy, hyk⟩ := List.mem_map.1 h
    have h2 := Rec.key_eq.1 hyk
    have : y = x := List.inj_on_of_nodup_map hn hy hx (h2.1.trans h1.symm)
    rw [← hyk, this]
  · rfl

@[simp] theorem afterCall_key (st : Strategy) (now : Nat) (r : Rec) (a : Ret) : (afterCall st now r a).key = r.key := by
  unfold afterCall retryStep
  cases a <;> simp only [] <;> (try split) <;> rfl

@[simp] theorem afterCall_id (st : Strategy) (now : Nat) (r : Rec) (a : Ret) : (afterCall st now r a).id = r.id := (Rec.key_eq.1 (afterCall_key st now r a)).1
@[simp] theorem afterCall_service (st : Strategy) (now : Nat) (r : Rec) (a : Ret) : (afterCall st now r a).service = r.service := (Rec.key_eq.1 (afterCall_key st now r a)).2.1
@[simp] theorem afterCall_eventId (st : Strategy) (now : Nat) (r : Rec) (a : Ret) : (afterCall st now r a).eventId = r.eventId := (Rec.key_eq.1 (afterCall_key st now r a)).2.2

/-- everything except the contents of delivery records is the same -/
structure SameButRecs (db db' : DB) : Prop where
  events : db'.events = db.events
  services : db'.services = db.services
  txs : db'.txs = db.txs
  nextEv : db'.nextEv = db.nextEv
  nextRec : db'.nextRec = db.nextRec
  nextTx : db'.nextTx = db.nextTx
  keys : db'.recs.map Rec.key = db.recs.map Rec.key

theorem SameButRecs.refl (db : DB) : SameButRecs db db := ⟨rfl, rfl, rfl, rfl, rfl, rfl, rfl⟩
theorem SameButRecs.trans {a b c : DB} (h : SameButRecs a b) (h' : SameButRecs b c) : SameButRecs a c :=
  ⟨h'.1.trans h.1, h'.2.trans h.2, h'.3.trans h.3, h'.4.trans h.4, h'.5.trans h.5, h'.6.trans h.6, h'.7.trans h.7⟩

theorem ids_of_keys {db db' : DB} (h : db'.recs.map Rec.key = db.recs.map Rec.key) : db'.recs.map Rec.id = db.recs.map Rec.id := by
  have := congrArg (List.map Prod.fst) h
  simpa [List.map_map, Function.comp_def, Rec.key] using this

theorem svcs_of_keys {db db' : DB} (h : db'.recs.map Rec.key = db.recs.map Rec.key) :
    (db'.recs.map fun r => (r.service, r.eventId)) = db.recs.map fun r => (r.service, r.eventId) := by
  have := congrArg (List.map Prod.snd) h
  simpa [List.map_map, Function.comp_def, Rec.key] using this

theorem mem_of_keys {db db' : DB} (h : db'.recs.map Rec.key = db.recs.map Rec.key) {r : Rec} (hr : r ∈ db'.recs) : ∃ x ∈ db.recs, x.key = r.key := by
  have : r.key ∈ db'.recs.map Rec.key := List.mem_map_of_mem hr
  rw [h] at this
  obtain ⟨x, h1, h2⟩ := List.mem_map.1 this
  exact ⟨x, h1, h2⟩

theorem SameButRecs.valid {db db' : DB} (h : SameButRecs db db') (hv : Valid db) : Valid db' := by
  refine ⟨?_, ?_, ?_, ?_, ?_, ?_, ?_, ?_, ?_, ?_, ?_⟩
  · rw [h.events]; exact hv.evIds
  · rw [h.events, h.nextEv]; exact hv.evFresh
  · rw [ids_of_keys h.keys]; exact hv.recIds
  · intro r hr
    obtain ⟨x, h1, h2⟩ := mem_of_keys h.keys hr
    rw [h.nextRec, ← (Rec.key_eq.1 h2).1]; exact hv.recFresh x h1
  · intro r hr
    obtain ⟨x, h1, h2⟩ := mem_of_keys h.keys hr
    rw [h.nextEv, ← (Rec.key_eq.1 h2).2.2]; exact hv.recEv x h1
  · rw [svcs_of_keys h.keys]; exact hv.recKeys
  · rw [h.services]; exact hv.svcs
  · rw [h.txs]; exact hv.txIds
  · rw [h.txs, h.nextTx]; exact hv.txFresh
  · rw [h.events, h.nextTx]; exact hv.evTx
  · rw [h.nextTx]; exact hv.txPos

theorem same_saveRec {db : DB} (hn : (db.recs.map Rec.id).Nodup) {r : Rec} (h : r.key ∈ db.recs.map Rec.key) : SameButRecs db (saveRec db r) :=
  ⟨rfl, rfl, rfl, rfl, rfl, rfl, saveRec_keys hn h⟩

theorem same_handle {c : Cfg} {db : DB} (hn : (db.recs.map Rec.id).Nodup) {svc start now : Nat} {t : Tuple} (h : t.r.key ∈ db.recs.map Rec.key) (ans : DEv → Ret) :
    SameButRecs db (handle c db svc start now t ans).1 := by
  unfold handle
  split
  · split
    · exact .refl _
    · split
      · exact same_saveRec hn (by simpa using h)
      · exact same_saveRec hn h
  · exact .refl _

theorem same_handleAll {c : Cfg} {svc start now : Nat} {ans : Nat → DEv → Ret} (ts : List Tuple) (i : Nat) (db : DB) (hn : (db.recs.map Rec.id).Nodup)
    (h : ∀ t ∈ ts, t.r.key ∈ db.recs.map Rec.key) : SameButRecs db (handleAll c svc start now ans i ts db).1 := by
  induction ts generalizing i db with
  | nil => exact .refl _
  | cons t ts ih =>
    simp only [handleAll]
    have h1 := same_handle (c := c) (svc := svc) (start := start) (now := now) hn (h t (by simp)) (ans i)
    refine h1.trans (ih _ _ ?_ ?_)
    · rw [ids_of_keys h1.keys]; exact hn
    · intro t' ht'
      rw [h1.keys]; exact h t' (by simp [ht'])

theorem same_handleEvents {c : Cfg} {svc now : Nat} {ans : Nat → DEv → Ret} {db : DB} (hn : (db.recs.map Rec.id).Nodup) : SameButRecs db (handleEvents c svc now ans db).1 := by
  unfold handleEvents
  split
  · exact .refl _
  · apply same_handleAll _ _ _ hn
    intro t ht
    exact List.mem_map_of_mem (mem_scanRecs (mem_pairUp ht).1).1

/-! ## cleaning -/

theorem cleanBatch_events {svc : Nat} {db : DB} {ids : List Nat} : (cleanBatch svc db ids).events.Sublist db.events := by
  simp only [cleanBatch, deleteEvents, deleteRecs]; exact List.filter_sublist

theorem cleanBatch_recs {svc : Nat} {db : DB} {ids : List Nat} : (cleanBatch svc db ids).recs.Sublist db.recs := by
  simp only [cleanBatch, deleteEvents, deleteRecs]; exact List.filter_sublist

/-- only rows of events and delivery records were removed -/
structure Removed (db db' : DB) : Prop where
  events : db'.events.Sublist db.events
  recs : db'.recs.Sublist db.recs
  services : db'.services = db.services
  txs : db'.txs = db.txs
  nextEv : db'.nextEv = db.nextEv
  nextRec : db'.nextRec = db.nextRec
  nextTx : db'.nextTx = db.nextTx

theorem Removed.valid {db db' : DB} (h : Removed db db') (hv : Valid db) : Valid db' := by
  refine ⟨hv.evIds.sublist (h.events.map _), ?_, hv.recIds.sublist (h.recs.map _), ?_, ?_, hv.recKeys.sublist (h.recs.map _), ?_, ?_, ?_, ?_, ?_⟩
  · intro e he; rw [h.nextEv]; exact hv.evFresh e (h.events.subset he)
  · intro e he; rw [h.nextRec]; exact hv.recFresh e (h.recs.subset he)
  · intro e he; rw [h.nextEv]; exact hv.recEv e (h.recs.subset he)
  · rw [h.services]; exact hv.svcs
  · rw [h.txs]; exact hv.txIds
  · rw [h.txs, h.nextTx]; exact hv.txFresh
  · intro e he; rw [h.nextTx]; exact hv.evTx e (h.events.subset he)
  · rw [h.nextTx]; exact hv.txPos

theorem removed_cleanBatch {svc : Nat} {db : DB} {ids : List Nat} : Removed db (cleanBatch svc db ids) := ⟨cleanBatch_events, cleanBatch_recs, rfl, rfl, rfl, rfl, rfl⟩

theorem Removed.trans {a b c : DB} (h : Removed a b) (h' : Removed b c) : Removed a c :=
  ⟨h'.1.trans h.1, h'.2.trans h.2, h'.3.trans h.3, h'.4.trans h.4, h'.5.trans h.5, h'.6.trans h.6, h'.7.trans h.7⟩

theorem removed_foldl {svc : Nat} (bs : List (List Nat)) (db : DB) : Removed db (bs.foldl (cleanBatch svc) db) := by
  induction bs generalizing db with
  | nil => exact ⟨.refl _, .refl _, rfl, rfl, rfl, rfl, rfl⟩
  | cons b bs ih => exact removed_cleanBatch.trans (ih _)

theorem removed_clean {c : Cfg} {svc now : Nat} {db : DB} : Removed db (clean c svc now db) := removed_foldl _ _

/-! ## dispatching -/

/-- only events, and records of new events, were added; transactions may be removed -/
structure Added (tid : Nat) (db db' : DB) : Prop where
  events : ∃ ps, db'.events = db.events ++ ps ∧ ∀ p ∈ ps, p.transId = tid ∧ db.nextEv ≤ p.id
  recs : ∃ rs, db'.recs = db.recs ++ rs ∧ ∀ r ∈ rs, db.nextEv ≤ r.eventId
  services : db'.services = db.services
  txs : db'.txs = db.txs
  nextEv : db.nextEv ≤ db'.nextEv
  nextTx : db'.nextTx = db.nextTx
  valid : tid < db.nextTx → Valid db → Valid db'

theorem Added.refl (tid : Nat) (db : DB) : Added tid db db := ⟨⟨[], by simp⟩, ⟨[], by simp⟩, rfl, rfl, Nat.le_refl _, rfl, fun _ => id⟩

theorem valid_insertAllRecs {ps : List EvRow} (hn : (ps.map EvRow.id).Nodup) (ss : List Nat) (hs : ss.Nodup) {db : DB} (hv : Valid db) (hp : ∀ p ∈ ps, p.id < db.nextEv)
    (hnew : ∀ r ∈ db.recs, r.service ∈ ss → ∀ p ∈ ps, r.eventId ≠ p.id) : Valid (insertAllRecs ps ss db) := by
  induction ss generalizing db with
  | nil => exact hv
  | cons s ss ih =>
    refine ih (List.nodup_cons.1 hs).2 (valid_insertRecs hv hn hp fun r hr h1 => hnew r hr (by simp [h1])) hp ?_
    intro r hr h1 p hp1
    rcases List.mem_append.1 hr with hr | hr
    · exact hnew r hr (by simp [h1]) p hp1
    · have := newRecs_service hr
      exact absurd (this ▸ h1) (List.nodup_cons.1 hs).1

theorem added_dispatch (db : DB) (tid : Nat) (es : List DEv) (n : Nat) : Added tid db (dispatch db tid es n).1 := by
  have hnd : ((newEvents db.nextEv tid es).map EvRow.id).Nodup := by rw [newEvents_ids]; exact List.nodup_range'
  have hp : ∀ p ∈ newEvents db.nextEv tid es, p.transId = tid ∧ db.nextEv ≤ p.id := fun p hp => ⟨(mem_newEvents hp).1, (mem_newEvents hp).2.1⟩
  unfold dispatch
  split
  · exact .refl _ _
  · split
    · exact .refl _ _
    · exact ⟨⟨_, rfl, hp⟩, ⟨[], by simp [insertEvents]⟩, rfl, rfl, by simp [insertEvents], rfl, fun ht hv => valid_insertEvents hv ht _⟩
    · rename_i n
      obtain ⟨f1, f2, f3, f4, f5⟩ := insertAllRecs_frame (newEvents db.nextEv tid es) (db.services.take n) (insertEvents db tid es)
      refine ⟨⟨_, by rw [f1]; rfl, hp⟩, ?_, by rw [f2]; rfl, by rw [f3]; rfl, by rw [f4]; simp [insertEvents], by rw [f5]; rfl, ?_⟩
      · have : ∀ (ss : List Nat) (d : DB), ∃ rs, (insertAllRecs (newEvents db.nextEv tid es) ss d).recs = d.recs ++ rs ∧ ∀ r ∈ rs, db.nextEv ≤ r.eventId := by
          intro ss
          induction ss with
          | nil => intro d; exact ⟨[], by simp [insertAllRecs], by simp⟩
          | cons s ss ih =>
            intro d
            obtain ⟨rs, h1, h2⟩ := ih (insertRecs d s (newEvents db.nextEv tid es))
            refine ⟨newRecs d.nextRec s (newEvents db.nextEv tid es) ++ rs, by rw [insertAllRecs, h1]; simp [insertRecs], ?_⟩
            intro r hr
            rcases List.mem_append.1 hr with hr | hr
            · obtain ⟨p, hp1, hp2⟩ := newRecs_fresh hr
              rw [hp2.2.1]; exact (hp p hp1).2
            · exact h2 r hr
        exact this _ _
      · intro ht hv
        refine valid_insertAllRecs hnd _ (hv.svcs.sublist (List.take_sublist _ _)) (valid_insertEvents hv ht _) ?_ ?_
        · intro p hp; exact (mem_newEvents hp).2.2
        · intro r hr _ p hp hh
          have h1 := hv.recEv r hr
          have h2 := (mem_newEvents hp).2.1
          omega

theorem valid_deleteTx {db : DB} (hv : Valid db) (i : Nat) : Valid (deleteTx db i) :=
  ⟨hv.evIds, hv.evFresh, hv.recIds, hv.recFresh, hv.recEv, hv.recKeys, hv.svcs, hv.txIds.sublist (List.filter_sublist.map _), fun t ht => hv.txFresh t (List.mem_of_mem_filter ht), hv.evTx, hv.txPos⟩

theorem commit_cases (db : DB) (tx : TxRow) (n : Nat) : (commit db tx n).1 = db ∨
    ∃ d, Added tx.id db d ∧ ((commit db tx n).1 = d ∨ (commit db tx n).1 = deleteTx d tx.id) := by
  unfold commit
  split
  · exact .inl rfl
  · rename_i n
    split
    · exact .inl rfl
    · right
      refine ⟨_, added_dispatch db tx.id tx.events n, ?_⟩
      unfold commitRest
      split
      · rename_i h; rw [h]; exact .inl rfl
      · rename_i h
        rw [h]
        split
        · exact .inl rfl
        · exact .inr rfl

end Ddd.Bus
