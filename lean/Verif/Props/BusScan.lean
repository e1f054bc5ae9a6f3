import Verif.Props.BusTx
/-!
# C39: scanning for work on the MySQL event bus
-/
set_option linter.unusedVariables false
set_option linter.unusedSimpArgs false
namespace Ddd.Bus

theorem sorted_isort {α} (f : α → Nat) (l : List α) : (l.insertionSort fun a b => f a ≤ f b).Pairwise fun a b => f a ≤ f b := by
  have : Std.Total (fun a b : α => f a ≤ f b) := ⟨fun a b => Nat.le_total _ _⟩
  have : IsTrans α (fun a b : α => f a ≤ f b) := ⟨fun a b c => Nat.le_trans⟩
  exact List.pairwise_insertionSort _ l

/-- **C39** The window starts at the event with the smallest ID among those created within the window. -/
theorem C39_window_start {db : DB} {window now start : Nat} : scanStart db window now = some start ↔ IsWindowStart db window now start := by
  have key : ∀ i, scanStart db window now = some i → IsWindowStart db window now i := by
    intro i h
    unfold scanStart at h
    have hs := sorted_isort EvRow.id (db.events.filter fun e => decide (now ≤ e.ev.created + window))
    have hm : ∀ e, e ∈ (db.events.filter fun e => decide (now ≤ e.ev.created + window)).insertionSort (fun a b => a.id ≤ b.id) ↔ e ∈ db.events ∧ now ≤ e.ev.created + window := by
      intro e; simp [mem_isort]
    generalize (db.events.filter fun e => decide (now ≤ e.ev.created + window)).insertionSort (fun a b => a.id ≤ b.id) = l at h hs hm
    cases l with
    | nil => simp at h
    | cons e l =>
      simp only [List.head?_cons, Option.map_some, Option.some.injEq] at h
      subst h
      have h1 := (hm e).1 (by simp)
      refine ⟨⟨e, h1.1, rfl, h1.2⟩, ?_⟩
      intro e' he' hw
      rcases List.mem_cons.1 ((hm e').2 ⟨he', hw⟩) with rfl | h2
      · exact Nat.le_refl _
      · exact (List.pairwise_cons.1 hs).1 e' h2
  refine ⟨key start, ?_⟩
  rintro ⟨⟨e, he, hi, hw⟩, hmin⟩
  cases h : scanStart db window now with
  | none =>
    unfold scanStart at h
    have hm : e ∈ (db.events.filter fun e => decide (now ≤ e.ev.created + window)).insertionSort (fun a b => a.id ≤ b.id) := by simp [mem_isort, he, hw]
    generalize (db.events.filter fun e => decide (now ≤ e.ev.created + window)).insertionSort (fun a b => a.id ≤ b.id) = l at h hm
    cases l <;> simp at h hm
  | some i =>
    obtain ⟨⟨e', he', hi', hw'⟩, hmin'⟩ := key i h
    have h1 := hmin e' he' hw'
    have h2 := hmin' e he hw
    have : i = start := by omega
    rw [this]

/-- without a start there is no event in the window. -/
theorem C39_no_start {db : DB} {window now : Nat} (h : scanStart db window now = none) : ∀ e ∈ db.events, ¬ now ≤ e.ev.created + window := by
  intro e he hw
  unfold scanStart at h
  have hm : e ∈ (db.events.filter fun e => decide (now ≤ e.ev.created + window)).insertionSort (fun a b => a.id ≤ b.id) := by simp [mem_isort, he, hw]
  generalize (db.events.filter fun e => decide (now ≤ e.ev.created + window)).insertionSort (fun a b => a.id ≤ b.id) = l at h hm
  cases l <;> simp at h hm

theorem pendingFrom_sorted (db : DB) (svc start : Nat) : (pendingFrom db svc start).Pairwise fun a b => a.eventId ≤ b.eventId := sorted_isort Rec.eventId _

/-- the offset shortcut changes nothing. -/
theorem pendingFrom_offset {db : DB} {svc start : Nat} {r0 : Rec} (h : (pendingFrom db svc start).head? = some r0) :
    pendingFrom db svc (scanOffset start r0) = pendingFrom db svc start := by
  have hs := pendingFrom_sorted db svc start
  have hmin : ∀ r ∈ pendingFrom db svc start, r0.eventId ≤ r.eventId := by
    intro r hr
    generalize pendingFrom db svc start = l at h hs hr
    cases l with
    | nil => simp at h
    | cons x l =>
      simp only [List.head?_cons, Option.some.injEq] at h
      subst h
      rcases List.mem_cons.1 hr with rfl | hr
      · exact Nat.le_refl _
      · exact (List.pairwise_cons.1 hs).1 r hr
  have h0 : start ≤ r0.eventId := (mem_pendingFrom.1 (List.mem_of_mem_head? h)).2.2.2
  have key : ∀ r ∈ db.recs, r.service = svc → r.status = .init → (scanOffset start r0 ≤ r.eventId ↔ start ≤ r.eventId) := by
    intro r hr h1 h2
    unfold scanOffset
    split
    · split
      · constructor
        · intro h; omega
        · intro h; exact hmin r (mem_pendingFrom.2 ⟨hr, h1, h2, h⟩)
      · exact Iff.rfl
    · exact Iff.rfl
  unfold pendingFrom
  congr 1
  apply List.filter_congr
  intro r hr
  by_cases h1 : r.service = svc
  · by_cases h2 : r.status = .init
    · have := key r hr h1 h2
      simp [h1, h2, this]
    · simp [h2]
  · have : (r.service == svc) = false := beq_eq_false_iff_ne.2 h1
    simp only [this, Bool.false_and]

/-- the records of a scan, without the shortcut -/
theorem scanRecs_eq (db : DB) (svc start limit now : Nat) :
    scanRecs db svc start limit now = ((pendingFrom db svc start).filter fun r => decide (r.next ≤ now)).take limit := by
  unfold scanRecs
  split
  · rename_i h
    have : pendingFrom db svc start = [] := by
      cases hl : pendingFrom db svc start with
      | nil => rfl
      | cons x l => rw [hl] at h; simp at h
    rw [this]; simp
  · rename_i r0 h
    rw [pendingFrom_offset h]

theorem pendingFrom_strict {db : DB} (hv : Valid db) (svc start : Nat) : (pendingFrom db svc start).Pairwise fun a b => a.eventId < b.eventId := by
  have hs := pendingFrom_sorted db svc start
  have hp := List.perm_insertionSort (fun a b : Rec => a.eventId ≤ b.eventId) (db.recs.filter fun r => r.service == svc && decide (r.status = .init) && decide (start ≤ r.eventId))
  have hk : ((pendingFrom db svc start).map fun r => (r.service, r.eventId)).Nodup := by
    have := (hp.map fun r : Rec => (r.service, r.eventId)).nodup_iff.2 (hv.recKeys.sublist (List.filter_sublist.map _))
    exact this
  have hk' : (pendingFrom db svc start).Pairwise fun a b => (a.service, a.eventId) ≠ (b.service, b.eventId) := List.pairwise_map.1 hk
  refine (hs.and hk').imp_of_mem ?_
  intro a b ha hb hab
  have h1 := (mem_pendingFrom.1 ha).2.1
  have h2 := (mem_pendingFrom.1 hb).2.1
  obtain ⟨h3, h4⟩ := hab
  rcases Nat.lt_or_eq_of_le h3 with h | h
  · exact h
  · exact absurd (by rw [h1, h2, h]) h4

theorem scanRecs_strict {db : DB} (hv : Valid db) (svc start limit now : Nat) : (scanRecs db svc start limit now).Pairwise fun a b => a.eventId < b.eventId := by
  rw [scanRecs_eq]
  exact ((pendingFrom_strict hv svc start).sublist List.filter_sublist).sublist (List.take_sublist _ _)

/-- the events read for records in ascending order are exactly their events, in the same order. -/
theorem readEvents_ids {db : DB} (hn : (db.events.map EvRow.id).Nodup) {rs : List Rec} (hs : rs.Pairwise fun a b => a.eventId < b.eventId) (hi : ∀ r ∈ rs, ∃ e ∈ db.events, e.id = r.eventId) :
    ((db.events.filter fun e => decide (e.id ∈ rs.map Rec.eventId)).insertionSort fun a b => a.id ≤ b.id).map EvRow.id = rs.map Rec.eventId := by
  have h1 := List.perm_insertionSort (fun a b : EvRow => a.id ≤ b.id) (db.events.filter fun e => decide (e.id ∈ rs.map Rec.eventId))
  have h2 := sorted_isort EvRow.id (db.events.filter fun e => decide (e.id ∈ rs.map Rec.eventId))
  have hs1 : (((db.events.filter fun e => decide (e.id ∈ rs.map Rec.eventId)).insertionSort fun a b => a.id ≤ b.id).map EvRow.id).Pairwise (· ≤ ·) := List.pairwise_map.2 h2
  have hs2 : (rs.map Rec.eventId).Pairwise (· ≤ ·) := List.pairwise_map.2 (hs.imp Nat.le_of_lt)
  have hn2 : (rs.map Rec.eventId).Nodup := List.pairwise_map.2 (hs.imp Nat.ne_of_lt)
  have hn1 : (((db.events.filter fun e => decide (e.id ∈ rs.map Rec.eventId)).insertionSort fun a b => a.id ≤ b.id).map EvRow.id).Nodup :=
    (h1.map EvRow.id).nodup_iff.2 (hn.sublist (List.filter_sublist.map _))
  refine List.Perm.eq_of_pairwise (le := (· ≤ ·)) (fun a b _ _ => Nat.le_antisymm) hs1 hs2 ?_
  rw [List.perm_ext_iff_of_nodup hn1 hn2]
  intro i
  constructor
  · intro h
    obtain ⟨e, he, rfl⟩ := List.mem_map.1 h
    rw [mem_isort] at he
    simpa using (List.mem_filter.1 he).2
  · intro h
    obtain ⟨r, hr, rfl⟩ := List.mem_map.1 h
    obtain ⟨e, he, hei⟩ := hi r hr
    rw [← hei]
    apply List.mem_map_of_mem
    rw [mem_isort, List.mem_filter]
    refine ⟨he, ?_⟩
    rw [hei]; simpa using List.mem_map_of_mem (f := Rec.eventId) hr

theorem zip_pairs {rs : List Rec} {es : List EvRow} (h : es.map EvRow.id = rs.map Rec.eventId) :
    (List.zipWith Tuple.mk rs es).map Tuple.r = rs ∧ ∀ t ∈ List.zipWith Tuple.mk rs es, t.e.id = t.r.eventId := by
  induction rs generalizing es with
  | nil => simp
  | cons r rs ih =>
    cases es with
    | nil => simp at h
    | cons e es =>
      simp only [List.map_cons, List.cons.injEq] at h
      have := ih h.2
      refine ⟨by simp [this.1], ?_⟩
      intro t ht
      simp only [List.zipWith_cons_cons, List.mem_cons] at ht
      rcases ht with rfl | ht
      · exact h.1
      · exact this.2 t ht

theorem pairUp_own {db : DB} (hn : (db.events.map EvRow.id).Nodup) {rs : List Rec} (hs : rs.Pairwise fun a b => a.eventId < b.eventId) (hi : ∀ r ∈ rs, ∃ e ∈ db.events, e.id = r.eventId) :
    (pairUp db rs).map Tuple.r = rs ∧ ∀ t ∈ pairUp db rs, t.e.id = t.r.eventId := zip_pairs (readEvents_ids hn hs hi)

theorem scan_recs {db : DB} (hv : Valid db) (hi : Integrity db) (svc limit start now : Nat) : (scan db svc limit start now).map Tuple.r = scanRecs db svc start limit now :=
  (pairUp_own hv.evIds (scanRecs_strict hv svc start limit now) fun r hr => hi r (mem_scanRecs hr).1).1

/-- **C39** A scan returns, in ascending event order, the first `limit` pending and due delivery records of the service whose event is not before the start of the window, each with its own event. (The comparison of an event ID with
a record ID in the offset shortcut, `eventbus.go:398`, does no harm.) -/
theorem C39_right_work {db : DB} (hv : Valid db) (hi : Integrity db) (svc limit start now : Nat) : RightWork db svc start limit now (scan db svc limit start now) := by
  have hr := scan_recs hv hi svc limit start now
  have hstrict := scanRecs_strict hv svc start limit now
  have hlen : (scan db svc limit start now).length = (scanRecs db svc start limit now).length := by rw [← hr, List.length_map]
  refine ⟨?_, ?_, ?_, ?_, ?_⟩
  · intro t ht
    have : t.r ∈ scanRecs db svc start limit now := by rw [← hr]; exact List.mem_map_of_mem ht
    have h2 := mem_scanRecs this
    rw [scanRecs_eq] at this
    have h3 := mem_pendingFrom.1 (List.mem_of_mem_filter (List.mem_of_mem_take this))
    exact ⟨h2.1, h2.2.1, h2.2.2.1, h2.2.2.2, h3.2.2.2⟩
  · intro t ht
    exact ⟨(mem_pairUp ht).2, (pairUp_own hv.evIds hstrict fun r hr => hi r (mem_scanRecs hr).1).2 t ht⟩
  · rw [← hr] at hstrict
    rw [List.pairwise_map] at hstrict
    exact hstrict
  · rw [hlen, scanRecs_eq]; exact List.length_take_le _ _
  · intro r hd hnot
    rw [hr, scanRecs_eq] at hnot
    rw [hlen, scanRecs_eq]
    have hs : ((pendingFrom db svc start).filter fun r => decide (r.next ≤ now)).Pairwise fun a b => a.eventId < b.eventId := (pendingFrom_strict hv svc start).sublist List.filter_sublist
    have hm : r ∈ (pendingFrom db svc start).filter fun r => decide (r.next ≤ now) := by
      rw [List.mem_filter]; exact ⟨mem_pendingFrom.2 ⟨hd.1, hd.2.1, hd.2.2.1, hd.2.2.2.2⟩, by simpa using hd.2.2.2.1⟩
    have hall : ∀ t ∈ scan db svc limit start now, t.r ∈ ((pendingFrom db svc start).filter fun r => decide (r.next ≤ now)).take limit := by
      intro t ht; rw [← scanRecs_eq, ← hr]; exact List.mem_map_of_mem ht
    generalize (pendingFrom db svc start).filter (fun r => decide (r.next ≤ now)) = l at hs hm hnot hall
    rw [← List.take_append_drop limit l] at hs hm
    have hm' : r ∈ l.drop limit := (List.mem_append.1 hm).resolve_left hnot
    refine ⟨?_, fun t ht => (List.pairwise_append.1 hs).2.2 _ (hall t ht) r hm'⟩
    rw [List.length_take]
    have : limit < l.length := by
      by_contra hc
      rw [List.drop_eq_nil_of_le (by omega)] at hm'
      simp at hm'
    omega

/-- non-vacuity: limit 2, three due records of service 7 among others; the first two are returned. -/
example : let db := (dispatch (emptyDB [7, 8]) 0 [⟨1, 5, .normal, 3, 0⟩, ⟨2, 5, .fifo, 4, 1⟩, ⟨3, 6, .normal, 4, 1⟩] 100).1
    Valid db ∧ Integrity db ∧ (scan db 7 2 1 10).map (fun t => (t.r.eventId, t.e.id)) = [(1, 1), (2, 2)] := by
  refine ⟨(added_dispatch _ _ _ _).valid (by decide) (valid_emptyDB (by decide)), ?_, by decide +kernel⟩
  unfold Integrity
  decide +kernel

/-! ## overlapping with a cleaning -/

namespace ScanDemo
def ev (i : Nat) : DEv := ⟨i, 5, .normal, 10, i⟩
def db : DB := (dispatch (emptyDB [7]) 0 [ev 1, ev 2, ev 3] 100).1
/-- cleaning with no retention time -/
def cfg (limit : Nat) : Cfg := ⟨1000, limit, 0, limitRetry 3⟩
/-- another instance has handled and cleaned the first event in the meantime -/
def db1 : DB := runOps db [.run (cfg 1) 7 20 (fun _ _ => .ok), .clean (cfg 1) 7 21]
end ScanDemo

/-- **C39** fails when, between the two queries of a scan, another instance handles an event and cleans it: records and events are matched by position (`eventbus.go:428-434`), so record 2 gets event 3; its handler is
called with event 3, and event 2 is marked as successfully handled without any call. (Needs a retention time shorter than the time events stay unhandled.) -/
theorem C39_pairing_race : let ts := pairUp ScanDemo.db1 (scanRecs ScanDemo.db 7 1 10 20)
    ts.map (fun t => (t.r.eventId, t.e.id)) = [(1, 2), (2, 3)] ∧
    (handleAll (ScanDemo.cfg 10) 7 1 22 (fun _ _ => .ok) 0 ts ScanDemo.db1).2.map DEv.evId = [3] ∧
    ((handleAll (ScanDemo.cfg 10) 7 1 22 (fun _ _ => .ok) 0 ts ScanDemo.db1).1.recs.filter fun r => decide (r.status = .success)).map Rec.eventId = [2] := by
  decide +kernel

end Ddd.Bus
