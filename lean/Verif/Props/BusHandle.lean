import Verif.Props.BusScan
/-!
# C43–C45, C47–C50: handling and cleaning by one instance at a time
-/
set_option linter.unusedVariables false
set_option linter.unusedSimpArgs false
namespace Ddd.Bus

/-! ## C43 -/

/-- the same answers with panics replaced by errors -/
def noPanic (ans : Nat → DEv → Ret) : Nat → DEv → Ret := fun i e => if ans i e = .panic then .err else ans i e

theorem handle_noPanic {c : Cfg} {db : DB} {svc start now : Nat} {t : Tuple} {ans : Nat → DEv → Ret} {i : Nat} :
    handle c db svc start now t (noPanic ans i) = handle c db svc start now t (ans i) := by
  unfold handle noPanic
  cases h : ans i t.e.ev <;> simp [afterCall]

/-- **C43** A run in which handlers panic ends with the same database, and the same calls are made, as if these handlers had returned errors. -/
theorem C43_panic_is_failure (c : Cfg) (svc now : Nat) (ans : Nat → DEv → Ret) (db : DB) :
    handleEvents c svc now ans db = handleEvents c svc now (noPanic ans) db := by
  have key : ∀ start ts i db, handleAll c svc start now ans i ts db = handleAll c svc start now (noPanic ans) i ts db := by
    intro start ts
    induction ts with
    | nil => intro i db; rfl
    | cons t ts ih => intro i db; simp only [handleAll, handle_noPanic, ih]
  unfold handleEvents
  split
  · rfl
  · exact key _ _ _ _

/-- **C43** Handling one record, whatever its handler does, changes no other record and no event. -/
theorem C43_others_unaffected (c : Cfg) (db : DB) (svc start now : Nat) (t : Tuple) (ans : DEv → Ret) :
    (handle c db svc start now t ans).1.events = db.events ∧
    ∀ r, r.id ≠ t.r.id → (r ∈ (handle c db svc start now t ans).1.recs ↔ r ∈ db.recs) := by
  have key : ∀ x : Rec, x.id = t.r.id → ∀ r, r.id ≠ t.r.id → (r ∈ (saveRec db x).recs ↔ r ∈ db.recs) := by
    intro x hx r hr
    simp only [saveRec, List.mem_map]
    constructor
    · rintro ⟨y, hy, h⟩
      split at h
      · subst h; exact absurd hx hr
      · subst h; exact hy
    · intro h
      exact ⟨r, h, by rw [if_neg (by rw [hx]; exact hr)]⟩
  unfold handle
  split
  · split
    · exact ⟨rfl, fun r _ => Iff.rfl⟩
    · split
      · exact ⟨rfl, key _ (by simp)⟩
      · exact ⟨rfl, key _ rfl⟩
  · exact ⟨rfl, fun r _ => Iff.rfl⟩

/-- **C43** A panic consumes one retry: the record is pending with the next count and time, or failed if the strategy allows no more. -/
theorem C43_panic_retries {c : Cfg} {db : DB} {svc start now : Nat} {t : Tuple} {ans : DEv → Ret} (hr : t.r ∈ db.recs) (hs : t.r.status = .init) (hc : mayCall db svc start t.e = true)
    (ha : ans t.e.ev = .panic) :
    ∃ r ∈ (handle c db svc start now t ans).1.recs, r.id = t.r.id ∧ (handle c db svc start now t ans).2 = some t.e.ev ∧
      match c.strategy t.r.retry now with
      | some (k, time) => r.status = .init ∧ r.retry = k ∧ r.next = time
      | none => r.status = .failed := by
  have h1 : (db.recs.any fun x => x.id == t.r.id) = true := by
    rw [List.any_eq_true]; exact ⟨t.r, hr, by simp⟩
  unfold handle
  simp only [h1, hs, hc, ha, if_true, ne_eq, not_true_eq_false, if_false, afterCall]
  refine ⟨retryStep c.strategy now t.r, ?_, ?_, trivial, ?_⟩
  · simp only [saveRec, List.mem_map]
    refine ⟨t.r, hr, ?_⟩
    rw [if_pos]
    exact (afterCall_id c.strategy now t.r .err).symm
  · exact afterCall_id c.strategy now t.r .err
  · unfold retryStep
    split <;> simp_all

/-! ## C44, C45 -/

theorem later_trans {a b c : EvRow} (h : later a b) (h' : later b c) : later a c := by unfold later at *; omega
theorem later_total (a b : EvRow) : later a b ∨ later b a := by unfold later; omega

theorem mem_precedingList {db : DB} {e p : EvRow} :
    p ∈ (db.events.filter fun p => p.ev.sender == e.ev.sender && decide (p.ev.created ≤ e.ev.created) && decide (p.id < e.id)) ↔ Earlier db e p := by
  simp only [List.mem_filter, Bool.and_eq_true, beq_iff_eq, decide_eq_true_eq, Earlier]
  tauto

theorem preceding_some {db : DB} {e p : EvRow} (h : preceding db e = some p) : IsPreceding db e p := by
  unfold preceding at h
  have hs : ((db.events.filter fun p => p.ev.sender == e.ev.sender && decide (p.ev.created ≤ e.ev.created) && decide (p.id < e.id)).insertionSort later).Pairwise later := by
    have : Std.Total later := ⟨later_total⟩
    have : IsTrans EvRow later := ⟨fun a b c => later_trans⟩
    exact List.pairwise_insertionSort _ _
  have hm : ∀ q, q ∈ ((db.events.filter fun p => p.ev.sender == e.ev.sender && decide (p.ev.created ≤ e.ev.created) && decide (p.id < e.id)).insertionSort later) ↔ Earlier db e q := by
    intro q; rw [mem_isort]; exact mem_precedingList
  generalize ((db.events.filter fun p => p.ev.sender == e.ev.sender && decide (p.ev.created ≤ e.ev.created) && decide (p.id < e.id)).insertionSort later) = l at h hs hm
  cases l with
  | nil => simp at h
  | cons x l =>
    simp only [List.head?_cons, Option.some.injEq] at h
    subst h
    refine ⟨(hm x).1 (by simp), ?_⟩
    intro q hq
    rcases List.mem_cons.1 ((hm q).2 hq) with rfl | h
    · right; exact ⟨rfl, Nat.le_refl _⟩
    · have := (List.pairwise_cons.1 hs).1 q h
      unfold later at this; omega

theorem preceding_none {db : DB} {e : EvRow} (h : preceding db e = none) : ∀ p, ¬ Earlier db e p := by
  intro p hp
  unfold preceding at h
  have := mem_precedingList.2 hp
  rw [← mem_isort (r := later)] at this
  generalize ((db.events.filter fun p => p.ev.sender == e.ev.sender && decide (p.ev.created ≤ e.ev.created) && decide (p.id < e.id)).insertionSort later) = l at h this
  cases l <;> simp at h this

/-- The (xid) event IDs are unique. -/
def UniqueEvIds (db : DB) : Prop := ∀ e ∈ db.events, ∀ e' ∈ db.events, e.ev.evId = e'.ev.evId → e = e'

theorem isPreceding_unique {db : DB} (hu : UniqueEvIds db) {e p q : EvRow} (hp : IsPreceding db e p) (hq : IsPreceding db e q) : p = q := by
  have h1 := hp.2 q hq.1
  have h2 := hq.2 p hp.1
  exact hu p hp.1.1 q hq.1.1 (by omega)

theorem recordIs_iff {db : DB} (hv : Valid db) {svc : Nat} {p : EvRow} {ok : Status → Bool} :
    RecordIs db svc p (fun s => ok s = true) ↔ (match db.recs.find? fun r => r.service == svc && r.eventId == p.id with
      | none => true
      | some r => ok r.status) = true := by
  constructor
  · intro h
    split
    · rfl
    · rename_i r hr
      have h1 := List.find?_some hr
      have h2 := List.mem_of_find?_eq_some hr
      simp only [Bool.and_eq_true, beq_iff_eq] at h1
      exact h r h2 h1.1 h1.2
  · intro h r hr h1 h2
    split at h
    · rename_i hn
      rw [List.find?_eq_none] at hn
      have := hn r hr
      simp [h1, h2] at this
    · rename_i r' hr'
      have h3 := List.find?_some hr'
      have h4 := List.mem_of_find?_eq_some hr'
      simp only [Bool.and_eq_true, beq_iff_eq] at h3
      have : r = r' := List.inj_on_of_nodup_map hv.recKeys hr h4 (by simp only [h1, h2, h3.1, h3.2])
      subst this; exact h

theorem precedingReady_iff {db : DB} (hv : Valid db) (hu : UniqueEvIds db) {svc start : Nat} {e : EvRow} {ok : Status → Bool}
    (hok : ∀ s, (match e.ev.sendType with
        | .fifo => decide (s = .success) || decide (s = .expired)
        | .laxFifo => decide (s ≠ .init)
        | _ => true) = ok s) :
    precedingReady db svc start e = true ↔ e.ev.sender ≠ 0 ∧ ∀ p, IsPreceding db e p → p.id < start ∨ RecordIs db svc p fun s => ok s = true := by
  unfold precedingReady
  by_cases h0 : e.ev.sender = 0
  · simp [h0]
  · simp only [if_neg h0]
    cases hp : preceding db e with
    | none =>
      simp only [true_iff]
      exact ⟨h0, fun p hp' => absurd hp'.1 (preceding_none hp p)⟩
    | some p =>
      have hpp := preceding_some hp
      have : (∀ p', IsPreceding db e p' → p'.id < start ∨ RecordIs db svc p' fun s => ok s = true) ↔ (p.id < start ∨ RecordIs db svc p fun s => ok s = true) := by
        constructor
        · intro h; exact h p hpp
        · intro h p' hp'; rw [isPreceding_unique hu hp' hpp]; exact h
      simp only [this, ne_eq, h0, not_false_eq_true, true_and]
      by_cases hs : p.id < start
      · simp [hs]
      · simp only [if_neg hs, hs, false_or]
        rw [recordIs_iff hv]
        cases hf : db.recs.find? fun r => r.service == svc && r.eventId == p.id with
        | none => simp
        | some r =>
          have := hok r.status
          simp only [← this, ne_eq, if_false]
          cases e.ev.sendType <;> simp

theorem handle_called {c : Cfg} {db : DB} {svc start now : Nat} {t : Tuple} {ans : DEv → Ret} {x : DEv} (h : (handle c db svc start now t ans).2 = some x) :
    x = t.e.ev ∧ mayCall db svc start t.e = true ∧ t.r.status = .init ∧ ∃ r ∈ db.recs, r.id = t.r.id := by
  unfold handle at h
  split at h
  · rename_i hx
    split at h
    · simp at h
    · rename_i hs
      split at h
      · rename_i hm
        simp only [Option.some.injEq] at h
        rw [List.any_eq_true] at hx
        obtain ⟨r, hr, hri⟩ := hx
        exact ⟨h.symm, hm, by simpa using hs, r, hr, by simpa using hri⟩
      · simp at h
  · simp at h

/-- **C44** (first part) The handler of a FIFO event is called only if the event has a sender and its preceding event (the latest earlier one of the same sender) is, for this service, successfully handled or expired, or lies before the
start of the window, or has no delivery record. -/
theorem C44_fifo_waits {c : Cfg} {db : DB} (hv : Valid db) (hu : UniqueEvIds db) {svc start now : Nat} {t : Tuple} {ans : DEv → Ret} {x : DEv} (ht : t.e.ev.sendType = .fifo)
    (h : (handle c db svc start now t ans).2 = some x) :
    t.e.ev.sender ≠ 0 ∧ ∀ p, IsPreceding db t.e p → p.id < start ∨ RecordIs db svc p fun s => s = .success ∨ s = .expired := by
  have hm := (handle_called h).2.1
  unfold mayCall at hm
  rw [if_pos (.inl ht)] at hm
  have := (precedingReady_iff (ok := fun s => decide (s = .success) || decide (s = .expired)) hv hu (by intro s; rw [ht])).1 hm
  simpa using this

/-- **C44** and a FIFO event whose predecessor is ready is called, if its record is still there and pending. -/
theorem C44_fifo_ready {c : Cfg} {db : DB} (hv : Valid db) (hu : UniqueEvIds db) {svc start now : Nat} {t : Tuple} {ans : DEv → Ret} (ht : t.e.ev.sendType = .fifo)
    (hr : t.r ∈ db.recs) (hs : t.r.status = .init) (h0 : t.e.ev.sender ≠ 0) (hp : ∀ p, IsPreceding db t.e p → p.id < start ∨ RecordIs db svc p fun s => s = .success ∨ s = .expired) :
    (handle c db svc start now t ans).2 = some t.e.ev := by
  have h1 : (db.recs.any fun x => x.id == t.r.id) = true := by rw [List.any_eq_true]; exact ⟨t.r, hr, by simp⟩
  have hm : mayCall db svc start t.e = true := by
    unfold mayCall
    rw [if_pos (.inl ht)]
    exact (precedingReady_iff (ok := fun s => decide (s = .success) || decide (s = .expired)) hv hu (by intro s; rw [ht])).2 ⟨h0, by simpa using hp⟩
  simp [handle, h1, hs, hm]

/-- **C44** A FIFO or LaxFIFO event without sender is never called. -/
theorem C44_no_sender {c : Cfg} {db : DB} {svc start now : Nat} {t : Tuple} {ans : DEv → Ret} (ht : t.e.ev.sendType = .fifo ∨ t.e.ev.sendType = .laxFifo) (h0 : t.e.ev.sender = 0) :
    (handle c db svc start now t ans).2 = none := by
  cases h : (handle c db svc start now t ans).2 with
  | none => rfl
  | some x =>
    have hm := (handle_called h).2.1
    simp [mayCall, ht, precedingReady, h0] at hm

/-- **C45** The handler of a LaxFIFO event is called only if the event has a sender and its preceding event is no longer pending for this service, or lies before the start of the window, or has no delivery record. -/
theorem C45_laxFifo_waits {c : Cfg} {db : DB} (hv : Valid db) (hu : UniqueEvIds db) {svc start now : Nat} {t : Tuple} {ans : DEv → Ret} {x : DEv} (ht : t.e.ev.sendType = .laxFifo)
    (h : (handle c db svc start now t ans).2 = some x) :
    t.e.ev.sender ≠ 0 ∧ ∀ p, IsPreceding db t.e p → p.id < start ∨ RecordIs db svc p fun s => s ≠ .init := by
  have hm := (handle_called h).2.1
  unfold mayCall at hm
  rw [if_pos (.inr ht)] at hm
  have := (precedingReady_iff (ok := fun s => decide (s ≠ .init)) hv hu (by intro s; rw [ht])).1 hm
  simpa using this

/-- **C45** and a LaxFIFO event whose predecessor is no longer pending is called. -/
theorem C45_laxFifo_ready {c : Cfg} {db : DB} (hv : Valid db) (hu : UniqueEvIds db) {svc start now : Nat} {t : Tuple} {ans : DEv → Ret} (ht : t.e.ev.sendType = .laxFifo)
    (hr : t.r ∈ db.recs) (hs : t.r.status = .init) (h0 : t.e.ev.sender ≠ 0) (hp : ∀ p, IsPreceding db t.e p → p.id < start ∨ RecordIs db svc p fun s => s ≠ .init) :
    (handle c db svc start now t ans).2 = some t.e.ev := by
  have h1 : (db.recs.any fun x => x.id == t.r.id) = true := by rw [List.any_eq_true]; exact ⟨t.r, hr, by simp⟩
  have hm : mayCall db svc start t.e = true := by
    unfold mayCall
    rw [if_pos (.inr ht)]
    exact (precedingReady_iff (ok := fun s => decide (s ≠ .init)) hv hu (by intro s; rw [ht])).2 ⟨h0, by simpa using hp⟩
  simp [handle, h1, hs, hm]

/-! ## C48, C47 -/

theorem foldl_cleanBatch {svc : Nat} (bs : List (List Nat)) (db : DB) :
    (∀ r, r ∈ (bs.foldl (cleanBatch svc) db).recs ↔ r ∈ db.recs ∧ ¬ (r.service = svc ∧ r.eventId ∈ bs.flatten)) ∧
    ∀ e, e ∈ (bs.foldl (cleanBatch svc) db).events ↔ e ∈ db.events ∧ ¬ (e.id ∈ bs.flatten ∧ ∀ r ∈ db.recs, r.eventId = e.id → r.service = svc) := by
  induction bs generalizing db with
  | nil => simp
  | cons b bs ih =>
    have hr1 : ∀ r, r ∈ (cleanBatch svc db b).recs ↔ r ∈ db.recs ∧ ¬ (r.service = svc ∧ r.eventId ∈ b) := by
      intro r
      simp only [cleanBatch, deleteEvents, deleteRecs, List.mem_filter, Bool.not_eq_true', Bool.and_eq_false_iff, beq_eq_false_iff_ne, decide_eq_false_iff_not]
      tauto
    have he1 : ∀ e, e ∈ (cleanBatch svc db b).events ↔ e ∈ db.events ∧ ¬ (e.id ∈ b ∧ ∀ r ∈ db.recs, r.eventId = e.id → r.service = svc) := by
      intro e
      simp only [cleanBatch, deleteEvents, List.mem_filter, decide_eq_true_eq, unreferenced, Bool.not_eq_true', List.any_eq_false, beq_iff_eq]
      have : (deleteRecs db svc b).events = db.events := rfl
      rw [this]
      refine and_congr_right fun _ => not_congr (and_congr_right fun hb => ?_)
      constructor
      · intro h r hr hi
        by_contra hne
        refine h r ?_ hi
        simp [deleteRecs, hr, hne]
      · intro h r hr hi
        simp only [deleteRecs, List.mem_filter, Bool.not_eq_true', Bool.and_eq_false_iff, beq_eq_false_iff_ne, decide_eq_false_iff_not] at hr
        have := h r hr.1 hi
        rcases hr.2 with h2 | h2
        · exact h2 this
        · exact h2 (hi ▸ hb)
    obtain ⟨i1, i2⟩ := ih (cleanBatch svc db b)
    constructor
    · intro r
      rw [List.foldl_cons, i1, hr1]
      simp only [List.flatten_cons, List.mem_append]
      tauto
    · intro e
      rw [List.foldl_cons, i2, he1]
      simp only [List.flatten_cons, List.mem_append]
      have h1 : (∀ r ∈ (cleanBatch svc db b).recs, r.eventId = e.id → r.service = svc) ↔ (∀ r ∈ db.recs, r.eventId = e.id → r.service = svc) := by
        constructor
        · intro h r hr hi
          by_contra hne
          exact hne (h r ((hr1 r).2 ⟨hr, fun hh => hne hh.1⟩) hi)
        · intro h r hr hi
          exact h r ((hr1 r).1 hr).1 hi
      rw [h1]
      tauto

theorem batches_flatten (l : List Nat) : (batches l).flatten = l := by
  induction l using batches.induct with
  | case1 => simp [batches]
  | case2 x xs ih =>
    rw [batches, List.flatten_cons, ih, List.take_append_drop]

theorem mem_cleanable {c : Cfg} {db : DB} (hv : Valid db) {svc now : Nat} {r : Rec} (hr : r ∈ db.recs) (hs : r.service = svc) :
    r.eventId ∈ cleanable c db svc now ↔ Finished c.retention svc now r := by
  unfold cleanable Finished
  simp only [List.mem_map, List.mem_filter, Bool.and_eq_true, beq_iff_eq, decide_eq_true_eq]
  constructor
  · rintro ⟨r', ⟨h1, ⟨h2, h3⟩, h4⟩, h5⟩
    have : r = r' := List.inj_on_of_nodup_map hv.recKeys hr h1 (by simp only [hs, h2, h5])
    subst this; exact ⟨h2, h3, h4⟩
  · rintro ⟨h1, h2, h3⟩
    exact ⟨r, ⟨hr, ⟨h1, h2⟩, h3⟩, rfl⟩

/-- **C48** Cleaning removes exactly the own records with status success created before now minus the retention time, and exactly those of their events no record references any more; nothing else changes. -/
theorem C48_clean_exact {c : Cfg} {svc now : Nat} {db : DB} (hv : Valid db) :
    (∀ r, r ∈ (clean c svc now db).recs ↔ r ∈ db.recs ∧ ¬ Finished c.retention svc now r) ∧
    (∀ e, e ∈ (clean c svc now db).events ↔ e ∈ db.events ∧
      ¬ ((∃ r ∈ db.recs, Finished c.retention svc now r ∧ r.eventId = e.id) ∧ ∀ r ∈ (clean c svc now db).recs, r.eventId ≠ e.id)) ∧
    (clean c svc now db).events.Sublist db.events ∧ (clean c svc now db).recs.Sublist db.recs ∧
    (clean c svc now db).services = db.services ∧ (clean c svc now db).txs = db.txs := by
  obtain ⟨h1, h2⟩ := foldl_cleanBatch (svc := svc) (batches (cleanable c db svc now)) db
  rw [batches_flatten] at h1 h2
  have hr : ∀ r, r ∈ (clean c svc now db).recs ↔ r ∈ db.recs ∧ ¬ Finished c.retention svc now r := by
    intro r
    unfold clean
    rw [h1]
    refine and_congr_right fun hr => not_congr ?_
    constructor
    · rintro ⟨hs, h⟩; exact (mem_cleanable hv hr hs).1 h
    · intro h; exact ⟨h.1, (mem_cleanable hv hr h.1).2 h⟩
  refine ⟨hr, ?_, removed_clean.events, removed_clean.recs, removed_clean.services, removed_clean.txs⟩
  intro e
  have h3 := h2 e
  unfold clean at hr ⊢
  rw [h3]
  refine and_congr_right fun he => not_congr ?_
  constructor
  · rintro ⟨ha, hb⟩
    unfold cleanable at ha
    simp only [List.mem_map, List.mem_filter, Bool.and_eq_true, beq_iff_eq, decide_eq_true_eq] at ha
    obtain ⟨r, ⟨g1, ⟨g2, g3⟩, g4⟩, g5⟩ := ha
    refine ⟨⟨r, g1, ⟨g2, g3, g4⟩, g5⟩, ?_⟩
    intro r' hr' hi
    have := (hr r').1 hr'
    have h5 := hb r' this.1 hi
    have : r = r' := List.inj_on_of_nodup_map hv.recKeys g1 this.1 (by simp only [g2, h5, g5, hi])
    subst this
    exact ((hr r).1 hr').2 ⟨g2, g3, g4⟩
  · rintro ⟨⟨r, hr1, hf, hi⟩, hb⟩
    refine ⟨?_, ?_⟩
    · rw [← hi]; exact (mem_cleanable hv hr1 hf.1).2 hf
    · intro r' hr' hi'
      by_contra hne
      exact hb r' ((hr r').2 ⟨hr', fun hh => hne hh.1⟩) hi'

/-- **C48** The result does not depend on how the records are divided into batches. -/
theorem C48_any_batches {svc : Nat} {db : DB} (bs : List (List Nat)) (c : Cfg) (now : Nat) (h : bs.flatten = cleanable c db svc now) :
    (∀ r, r ∈ (bs.foldl (cleanBatch svc) db).recs ↔ r ∈ (clean c svc now db).recs) ∧ ∀ e, e ∈ (bs.foldl (cleanBatch svc) db).events ↔ e ∈ (clean c svc now db).events := by
  obtain ⟨h1, h2⟩ := foldl_cleanBatch (svc := svc) bs db
  obtain ⟨h3, h4⟩ := foldl_cleanBatch (svc := svc) (batches (cleanable c db svc now)) db
  rw [batches_flatten] at h3 h4
  rw [h] at h1 h2
  exact ⟨fun r => (h1 r).trans (h3 r).symm, fun e => (h2 e).trans (h4 e).symm⟩

/-- **C48** Pending, failed, expired and younger records survive. -/
theorem C48_survive {c : Cfg} {svc now : Nat} {db : DB} (hv : Valid db) {r : Rec} (hr : r ∈ db.recs) (h : r.status ≠ .success ∨ now ≤ r.created + c.retention) : r ∈ (clean c svc now db).recs := by
  refine ((C48_clean_exact hv).1 r).2 ⟨hr, ?_⟩
  rintro ⟨-, h1, h2⟩
  rcases h with h | h
  · exact h h1
  · omega

/-- **C47** Cleaning by one service changes no record of another one and removes an event only when no record references it any more. -/
theorem C47_clean_isolated {c : Cfg} {svc now : Nat} {db : DB} (hv : Valid db) :
    (∀ r, r.service ≠ svc → (r ∈ (clean c svc now db).recs ↔ r ∈ db.recs)) ∧
    ∀ e ∈ db.events, e ∉ (clean c svc now db).events → ∀ r ∈ (clean c svc now db).recs, r.eventId ≠ e.id := by
  obtain ⟨h1, h2, -⟩ := C48_clean_exact (c := c) (svc := svc) (now := now) hv
  refine ⟨fun r hr => (h1 r).trans ⟨And.left, fun h => ⟨h, fun hh => hr hh.1⟩⟩, ?_⟩
  intro e he hn
  by_contra hc
  exact hn ((h2 e).2 ⟨he, fun h => hc h.2⟩)

theorem handleAll_isolated {c : Cfg} {svc start now : Nat} {ans : Nat → DEv → Ret} (ts : List Tuple) (i : Nat) (db : DB) (hn : (db.recs.map Rec.id).Nodup)
    (h : ∀ t ∈ ts, t.r.key ∈ db.recs.map Rec.key ∧ t.r.service = svc) : ∀ r, r.service ≠ svc → (r ∈ (handleAll c svc start now ans i ts db).1.recs ↔ r ∈ db.recs) := by
  induction ts generalizing i db with
  | nil => intro r _; rfl
  | cons t ts ih =>
    intro r hr
    simp only [handleAll]
    have h1 := same_handle (c := c) (svc := svc) (start := start) (now := now) hn (h t (by simp)).1 (ans i)
    rw [ih _ _ (by rw [ids_of_keys h1.keys]; exact hn) (fun t' ht' => by rw [h1.keys]; exact h t' (by simp [ht'])) r hr]
    by_cases hid : r.id = t.r.id
    · constructor
      · intro hm
        obtain ⟨x, hx, hk⟩ := mem_of_keys h1.keys hm
        obtain ⟨y, hy, hyk⟩ := List.mem_map.1 (h t (by simp)).1
        have : x = y := List.inj_on_of_nodup_map hn hx hy (by rw [(Rec.key_eq.1 hk).1, (Rec.key_eq.1 hyk).1, hid])
        subst this
        have := (Rec.key_eq.1 hk).2.1.symm.trans ((Rec.key_eq.1 hyk).2.1.trans (h t (by simp)).2)
        exact absurd this hr
      · intro hm
        obtain ⟨y, hy, hyk⟩ := List.mem_map.1 (h t (by simp)).1
        have : r = y := List.inj_on_of_nodup_map hn hm hy (by rw [(Rec.key_eq.1 hyk).1, hid])
        subst this
        exact absurd ((Rec.key_eq.1 hyk).2.1.trans (h t (by simp)).2) hr
    · exact (C43_others_unaffected c db svc start now t (ans i)).2 r hid

/-- **C47** A run of one service changes no record of another service and no event. -/
theorem C47_run_isolated {c : Cfg} {svc now : Nat} {ans : Nat → DEv → Ret} {db : DB} (hv : Valid db) :
    (∀ r, r.service ≠ svc → (r ∈ (handleEvents c svc now ans db).1.recs ↔ r ∈ db.recs)) ∧ (handleEvents c svc now ans db).1.events = db.events := by
  refine ⟨?_, (same_handleEvents hv.recIds).events⟩
  unfold handleEvents
  split
  · intro r _; rfl
  · apply handleAll_isolated _ _ _ hv.recIds
    intro t ht
    have := mem_scanRecs (mem_pairUp ht).1
    exact ⟨List.mem_map_of_mem this.1, this.2.1⟩

/-! ## concrete cases -/

namespace HandleDemo
def e1 : EvRow := ⟨1, ⟨11, 5, .fifo, 10, 0⟩, 0⟩
def e2 : EvRow := ⟨2, ⟨12, 5, .fifo, 10, 1⟩, 0⟩
def e3 : EvRow := ⟨3, ⟨13, 5, .laxFifo, 12, 2⟩, 0⟩
def r1 (s : Status) : Rec := ⟨1, 7, 1, 1, s, 10, 10⟩
def r2 (s : Status) : Rec := ⟨2, 7, 2, 0, s, 10, 10⟩
def r3 : Rec := ⟨3, 7, 3, 0, .init, 12, 12⟩
def db (s1 s2 : Status) : DB := { events := [e1, e2, e3], recs := [r1 s1, r2 s2, r3, ⟨4, 8, 1, 0, .init, 10, 10⟩], services := [7, 8], txs := [], nextEv := 4, nextRec := 5, nextTx := 1 }
def cfg : Cfg := ⟨1000, 100, 5, limitRetry 1⟩
theorem valid (s1 s2 : Status) : Valid (db s1 s2) := by
  constructor <;> simp [db, e1, e2, e3, r1, r2, r3]
theorem unique (s1 s2 : Status) : UniqueEvIds (db s1 s2) := by
  unfold UniqueEvIds
  intro e he e' he'
  simp only [db, List.mem_cons, List.not_mem_nil, or_false] at he he'
  rcases he with rfl | rfl | rfl <;> rcases he' with rfl | rfl | rfl <;> decide
end HandleDemo
open HandleDemo in
/-- the FIFO event 2 is called when event 1 succeeded, not when it failed; the LaxFIFO event 3 is called when event 2 failed, not while it is pending. -/
example : (handle cfg (db .success .init) 7 1 20 ⟨r2 .init, e2⟩ fun _ => .ok).2 = some e2.ev ∧ (handle cfg (db .failed .init) 7 1 20 ⟨r2 .init, e2⟩ fun _ => .ok).2 = none ∧
    (handle cfg (db .failed .failed) 7 1 20 ⟨r3, e3⟩ fun _ => .ok).2 = some e3.ev ∧ (handle cfg (db .failed .init) 7 1 20 ⟨r3, e3⟩ fun _ => .ok).2 = none := by decide +kernel
open HandleDemo in
/-- the panicking handler of event 2 is retried, then it failed for good. -/
example : (handle cfg (db .success .init) 7 1 20 ⟨r2 .init, e2⟩ fun _ => .panic).1.recs.map (fun r => (r.id, r.status, r.retry)) = [(1, .success, 1), (2, .init, 1), (3, .init, 0), (4, .init, 0)] := by decide +kernel
open HandleDemo in
/-- cleaning by service 7 removes its two finished records; event 1 stays because service 8 still needs it, event 2 goes. -/
example : (clean cfg 7 16 (db .success .success)).recs.map Rec.id = [3, 4] ∧ (clean cfg 7 16 (db .success .success)).events.map EvRow.id = [1, 3] := by decide +kernel

end Ddd.Bus
