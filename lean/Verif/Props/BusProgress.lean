import Verif.Props.BusHandle
/-!
# C49, C50: progress of the MySQL event bus
-/
set_option linter.unusedVariables false
set_option linter.unusedSimpArgs false
namespace Ddd.Bus

/-- the record is finished -/
def Rec.succeed (r : Rec) : Rec := { r with status := .success }

theorem handle_unordered_ok {c : Cfg} {db : DB} {svc start now : Nat} {t : Tuple} {ans : DEv → Ret} (hr : t.r ∈ db.recs) (hs : t.r.status = .init)
    (hu : t.e.ev.sendType ≠ .fifo ∧ t.e.ev.sendType ≠ .laxFifo) (ha : ans t.e.ev = .ok) :
    handle c db svc start now t ans = (saveRec db t.r.succeed, some t.e.ev) := by
  have h1 : (db.recs.any fun x => x.id == t.r.id) = true := by rw [List.any_eq_true]; exact ⟨t.r, hr, by simp⟩
  simp [handle, h1, hs, mayCall, hu, ha, afterCall, Rec.succeed]

theorem handleAll_unordered_ok {c : Cfg} {svc start now : Nat} {ans : Nat → DEv → Ret} (ha : ∀ i e, ans i e = .ok) (ts : List Tuple) (i : Nat) (db : DB)
    (hn : (db.recs.map Rec.id).Nodup) (hd : (ts.map fun t => t.r.id).Nodup)
    (ht : ∀ t ∈ ts, t.r ∈ db.recs ∧ t.r.status = .init ∧ t.e.ev.sendType ≠ .fifo ∧ t.e.ev.sendType ≠ .laxFifo) :
    (handleAll c svc start now ans i ts db).1 = { db with recs := db.recs.map fun x => if x.id ∈ ts.map (fun t => t.r.id) then x.succeed else x } ∧
    (handleAll c svc start now ans i ts db).2 = ts.map fun t => t.e.ev := by
  induction ts generalizing i db with
  | nil => simp [handleAll]
  | cons t ts ih =>
    obtain ⟨h1, h2, h3⟩ := ht t (by simp)
    have hs := same_saveRec (r := t.r.succeed) hn (List.mem_map.2 ⟨t.r, h1, rfl⟩)
    rw [List.map_cons, List.nodup_cons] at hd
    have hrec : (saveRec db t.r.succeed).recs = db.recs.map fun x => if x.id = t.r.id then x.succeed else x := by
      simp only [saveRec]
      apply List.map_congr_left
      intro x hx
      have : t.r.succeed.id = t.r.id := rfl
      rw [this]
      split
      · rename_i hi
        rw [List.inj_on_of_nodup_map hn hx h1 hi]
      · rfl
    obtain ⟨i1, i2⟩ := ih (i + 1) (saveRec db t.r.succeed) (by rw [ids_of_keys hs.keys]; exact hn) hd.2 (by
      intro t' ht'
      obtain ⟨g1, g2⟩ := ht t' (by simp [ht'])
      refine ⟨?_, g2⟩
      rw [hrec, List.mem_map]
      refine ⟨t'.r, g1, ?_⟩
      rw [if_neg]
      intro hi
      exact hd.1 (List.mem_map.2 ⟨t', ht', hi⟩))
    simp only [handleAll, handle_unordered_ok (c := c) (svc := svc) (start := start) (now := now) h1 h2 h3 (ha i t.e.ev)]
    rw [i1, i2]
    refine ⟨?_, by simp⟩
    rw [hrec, List.map_map]
    have : (fun x : Rec => if x.id ∈ (t :: ts).map (fun t => t.r.id) then x.succeed else x) =
        (fun x : Rec => if x.id ∈ ts.map (fun t => t.r.id) then x.succeed else x) ∘ fun x => if x.id = t.r.id then x.succeed else x := by
      funext x
      simp only [List.map_cons, List.mem_cons, Function.comp]
      by_cases ha : x.id = t.r.id
      · have hb : x.id ∉ ts.map fun t => t.r.id := by rw [ha]; exact hd.1
        have hb' : x.succeed.id ∉ ts.map fun t => t.r.id := hb
        simp only [ha, true_or, if_true]
        rw [if_neg hb']
      · simp only [ha, false_or, if_false]
    rw [this]
    rfl

theorem countP_split {α} (p q : α → Bool) (l : List α) : l.countP p = l.countP (fun x => p x && q x) + l.countP fun x => p x && !q x := by
  induction l with
  | nil => rfl
  | cons x l ih =>
    simp only [List.countP_cons, ih]
    cases p x <;> cases q x <;> simp <;> omega

theorem backlog_eq (db : DB) (svc start : Nat) : backlog db svc start = (pendingFrom db svc start).length := by
  unfold backlog pendingFrom
  rw [List.length_insertionSort, List.countP_eq_length_filter]
  congr 1
  apply List.filter_congr
  intro r _
  rw [Bool.eq_iff_iff]
  simp only [decide_eq_true_eq, Bool.and_eq_true, beq_iff_eq, and_assoc]

/-- everything `C50` needs to know about a database: unordered events, all pending records from `start` on due at `now`. -/
structure Backlog (db : DB) (svc start now : Nat) : Prop where
  valid : Valid db
  integrity : Integrity db
  unordered : ∀ e ∈ db.events, e.ev.sendType ≠ .fifo ∧ e.ev.sendType ≠ .laxFifo
  due : ∀ r ∈ db.recs, r.service = svc → r.status = .init → start ≤ r.eventId → r.next ≤ now

/-- **C50** One run when handlers succeed: the handler is called with the events of the first `limit` pending records, in order; exactly these records become success and nothing else changes. -/
theorem C50_one_run {c : Cfg} {svc start now : Nat} {ans : Nat → DEv → Ret} {db : DB} (ha : ∀ i e, ans i e = .ok) (hw : IsWindowStart db c.window now start) (hb : Backlog db svc start now) :
    ∃ ts, RightWork db svc start c.limit now ts ∧ (handleEvents c svc now ans db).2 = ts.map (fun t => t.e.ev) ∧
      (handleEvents c svc now ans db).1 = { db with recs := db.recs.map fun x => if x ∈ ts.map Tuple.r then x.succeed else x } ∧
      ts.length = min c.limit (backlog db svc start) := by
  have hstart := C39_window_start.2 hw
  have hrw := C39_right_work hb.valid hb.integrity svc c.limit start now
  refine ⟨_, hrw, ?_⟩
  have hmem : ∀ t ∈ scan db svc c.limit start now, t.r ∈ db.recs := fun t ht => (hrw.due t ht).1
  have hnd : ((scan db svc c.limit start now).map fun t => t.r.id).Nodup := by
    rw [List.Nodup, List.pairwise_map]
    refine hrw.ordered.imp_of_mem ?_
    intro a b ha hb' hlt hi
    have := List.inj_on_of_nodup_map hb.valid.recIds (hmem a ha) (hmem b hb') hi
    rw [this] at hlt; omega
  obtain ⟨h1, h2⟩ := handleAll_unordered_ok (c := c) (svc := svc) (start := start) (now := now) ha (scan db svc c.limit start now) 0 db hb.valid.recIds hnd (by
    intro t ht
    exact ⟨hmem t ht, (hrw.due t ht).2.2.1, hb.unordered t.e (hrw.own t ht).1⟩)
  unfold handleEvents
  rw [hstart]
  simp only
  rw [h1, h2]
  refine ⟨rfl, ?_, ?_⟩
  · congr 1
    apply List.map_congr_left
    intro x hx
    have : (x.id ∈ (scan db svc c.limit start now).map fun t => t.r.id) ↔ x ∈ (scan db svc c.limit start now).map Tuple.r := by
      constructor
      · intro h
        obtain ⟨t, ht, hi⟩ := List.mem_map.1 h
        have := List.inj_on_of_nodup_map hb.valid.recIds (hmem t ht) hx hi
        rw [← this]; exact List.mem_map_of_mem ht
      · intro h
        obtain ⟨t, ht, rfl⟩ := List.mem_map.1 h
        exact List.mem_map.2 ⟨t, ht, rfl⟩
    simp only [this]
  · have h3 := congrArg List.length (scan_recs hb.valid hb.integrity svc c.limit start now)
    rw [List.length_map] at h3
    rw [h3, scanRecs_eq, List.length_take, backlog_eq]
    congr 2
    rw [List.filter_eq_self]
    intro r hr
    have := mem_pendingFrom.1 hr
    simpa using hb.due r this.1 this.2.1 this.2.2.1 this.2.2.2

/-- **C50** One run reduces the backlog by `limit`, and keeps everything needed for the next run. -/
theorem C50_run_reduces {c : Cfg} {svc start now : Nat} {ans : Nat → DEv → Ret} {db : DB} (ha : ∀ i e, ans i e = .ok) (hw : IsWindowStart db c.window now start) (hb : Backlog db svc start now) :
    backlog (handleEvents c svc now ans db).1 svc start = backlog db svc start - c.limit ∧
    (handleEvents c svc now ans db).1.events = db.events ∧ Backlog (handleEvents c svc now ans db).1 svc start now := by
  obtain ⟨ts, hrw, -, hdb, hlen⟩ := C50_one_run (c := c) ha hw hb
  have hsame := same_handleEvents (c := c) (svc := svc) (now := now) (ans := ans) hb.valid.recIds
  refine ⟨?_, hsame.events, hsame.valid hb.valid, ?_, by rw [hsame.events]; exact hb.unordered, ?_⟩
  · rw [hdb]
    unfold backlog at hlen ⊢
    simp only [List.countP_map]
    have hsplit := countP_split (fun r : Rec => decide (r.service = svc ∧ r.status = .init ∧ start ≤ r.eventId)) (fun r => decide (r ∈ ts.map Tuple.r)) db.recs
    have hsel : (db.recs.countP fun r => decide (r.service = svc ∧ r.status = .init ∧ start ≤ r.eventId) && decide (r ∈ ts.map Tuple.r)) = ts.length := by
      rw [List.countP_eq_length_filter, ← List.length_map (f := Tuple.r) (as := ts)]
      apply List.Perm.length_eq
      rw [List.perm_ext_iff_of_nodup]
      · intro r
        simp only [List.mem_filter, Bool.and_eq_true, decide_eq_true_eq]
        constructor
        · exact fun h => h.2.2
        · intro h
          obtain ⟨t, ht, rfl⟩ := List.mem_map.1 h
          have hd := hrw.due t ht
          exact ⟨hd.1, ⟨hd.2.1, hd.2.2.1, hd.2.2.2.2⟩, h⟩
      · exact (List.Nodup.of_map _ hb.valid.recIds).sublist List.filter_sublist
      · rw [List.Nodup, List.pairwise_map]
        refine hrw.ordered.imp ?_
        intro a b hlt heq
        rw [heq] at hlt; omega
    have hrest : (db.recs.countP ((fun r : Rec => decide (r.service = svc ∧ r.status = .init ∧ start ≤ r.eventId)) ∘ fun x => if x ∈ ts.map Tuple.r then x.succeed else x)) =
        db.recs.countP fun r => decide (r.service = svc ∧ r.status = .init ∧ start ≤ r.eventId) && !decide (r ∈ ts.map Tuple.r) := by
      apply List.countP_congr
      intro r _
      simp only [Function.comp]
      by_cases h : r ∈ ts.map Tuple.r
      · simp [h, Rec.succeed]
      · simp [h]
    rw [hrest]
    omega
  · intro r hr
    obtain ⟨x, hx, hk⟩ := mem_of_keys hsame.keys hr
    rw [hsame.events, ← (Rec.key_eq.1 hk).2.2]
    exact hb.integrity x hx
  · intro r hr h1 h2 h3
    rw [hdb] at hr
    obtain ⟨x, hx, rfl⟩ := List.mem_map.1 hr
    split at h2
    · simp [Rec.succeed] at h2
    · rename_i hx2
      rw [if_neg hx2] at h1 h3 ⊢
      exact hb.due x hx h1 h2 h3

/-- runs one after the other at the given times -/
def runsAt (c : Cfg) (svc : Nat) (ans : Nat → DEv → Ret) : List Nat → DB → DB
  | [], db => db
  | t :: ts, db => runsAt c svc ans ts (handleEvents c svc t ans db).1

/-- **C50** `k` runs, at any times from `now` on at which the window still starts at `start`, reduce the backlog by `k * limit`: after `ceil (n / limit)` runs nothing is pending. -/
theorem C50_progress {c : Cfg} {svc start now : Nat} {ans : Nat → DEv → Ret} {db : DB} (ha : ∀ i e, ans i e = .ok) (hb : Backlog db svc start now) (times : List Nat)
    (ht : ∀ t ∈ times, now ≤ t ∧ IsWindowStart db c.window t start) : backlog (runsAt c svc ans times db) svc start = backlog db svc start - times.length * c.limit := by
  induction times generalizing db with
  | nil => simp [runsAt]
  | cons t times ih =>
    obtain ⟨h1, h2⟩ := ht t (by simp)
    have hb' : Backlog db svc start t := ⟨hb.valid, hb.integrity, hb.unordered, fun r a b d e => (hb.due r a b d e).trans h1⟩
    obtain ⟨g1, g2, g3⟩ := C50_run_reduces (c := c) ha h2 hb'
    have hsame := same_handleEvents (c := c) (svc := svc) (now := t) (ans := ans) hb.valid.recIds
    have hb2 : Backlog (handleEvents c svc t ans db).1 svc start now := by
      refine ⟨g3.valid, g3.integrity, g3.unordered, ?_⟩
      intro r hr a b d
      obtain ⟨ts, -, -, hdb, -⟩ := C50_one_run (c := c) ha h2 hb'
      rw [hdb] at hr
      obtain ⟨x, hx, rfl⟩ := List.mem_map.1 hr
      split at b
      · simp [Rec.succeed] at b
      · rename_i hx2
        rw [if_neg hx2] at a d ⊢
        exact hb.due x hx a b d
    have := ih hb2 (by
      intro t' ht'
      obtain ⟨k1, k2⟩ := ht t' (by simp [ht'])
      refine ⟨k1, ?_⟩
      unfold IsWindowStart at k2 ⊢
      rw [g2]; exact k2)
    rw [runsAt, this, g1, List.length_cons, Nat.succ_mul]
    omega

/-- **C50** in particular: after enough runs nothing is pending. -/
theorem C50_finished {c : Cfg} {svc start now : Nat} {ans : Nat → DEv → Ret} {db : DB} (ha : ∀ i e, ans i e = .ok) (hb : Backlog db svc start now) (times : List Nat)
    (ht : ∀ t ∈ times, now ≤ t ∧ IsWindowStart db c.window t start) (hn : backlog db svc start ≤ times.length * c.limit) :
    ∀ r ∈ (runsAt c svc ans times db).recs, r.service = svc → start ≤ r.eventId → r.status ≠ .init := by
  have h := C50_progress (c := c) ha hb times ht
  rw [Nat.sub_eq_zero_of_le hn] at h
  unfold backlog at h
  rw [List.countP_eq_zero] at h
  intro r hr h1 h2 h3
  have := h r hr
  simp [h1, h2, h3] at this

namespace ProgressDemo
def ev (i : Nat) : DEv := ⟨i, 5, .normal, 10, i⟩
def db : DB := (dispatch (emptyDB [7, 8]) 0 [ev 1, ev 2, ev 3] 100).1
def cfg : Cfg := ⟨1000, 2, 0, limitRetry 3⟩
end ProgressDemo

/-- non-vacuity: three events, limit 2, two runs. -/
example : Backlog ProgressDemo.db 7 1 10 ∧ IsWindowStart ProgressDemo.db 1000 10 1 ∧ backlog ProgressDemo.db 7 1 = 3 ∧
    backlog (runsAt ProgressDemo.cfg 7 (fun _ _ => .ok) [10, 11] ProgressDemo.db) 7 1 = 0 := by
  refine ⟨⟨(added_dispatch _ _ _ _).valid (by decide) (valid_emptyDB (by decide)), ?_, by decide +kernel, by decide +kernel⟩, C39_window_start.1 (by decide +kernel), by decide +kernel, by decide +kernel⟩
  unfold Integrity
  decide +kernel

/-! ## C49 -/

namespace Starve
/-- sender 5: a FIFO event whose handler failed for good, and a second FIFO event that therefore waits; sender 6: an ordinary event; all created at the same time -/
def db : DB :=
  { events := [⟨1, ⟨1, 5, .fifo, 10, 0⟩, 0⟩, ⟨2, ⟨2, 5, .fifo, 10, 0⟩, 0⟩, ⟨3, ⟨3, 6, .normal, 10, 0⟩, 0⟩],
    recs := [⟨1, 7, 1, 4, .failed, 10, 10⟩, ⟨2, 7, 2, 0, .init, 10, 10⟩, ⟨3, 7, 3, 0, .init, 10, 10⟩],
    services := [7], txs := [], nextEv := 4, nextRec := 4, nextTx := 1 }
end Starve

theorem handleEvents_starve {c : Cfg} (hl : c.limit = 1) (now : Nat) (ans : Nat → DEv → Ret) : handleEvents c 7 now ans Starve.db = (Starve.db, []) := by
  unfold handleEvents
  have hs : scanStart Starve.db c.window now = if now ≤ 10 + c.window then some 1 else none := by
    unfold scanStart
    by_cases h : now ≤ 10 + c.window
    · have : Starve.db.events.filter (fun e => decide (now ≤ e.ev.created + c.window)) = Starve.db.events := by
        rw [List.filter_eq_self]
        simp [Starve.db, h]
      rw [this, if_pos h]
      decide +kernel
    · have : Starve.db.events.filter (fun e => decide (now ≤ e.ev.created + c.window)) = [] := by
        rw [List.filter_eq_nil_iff]
        simp [Starve.db, h]
        omega
      rw [this, if_neg h]
      rfl
  rw [hs]
  split
  · rfl
  · rename_i start hst
    split at hst
    · simp only [Option.some.injEq] at hst
      subst hst
      have hp : pendingFrom Starve.db 7 1 = [⟨2, 7, 2, 0, .init, 10, 10⟩, ⟨3, 7, 3, 0, .init, 10, 10⟩] := by decide +kernel
      unfold scan
      rw [scanRecs_eq, hp, hl]
      by_cases h10 : 10 ≤ now
      · have : (([⟨2, 7, 2, 0, .init, 10, 10⟩, ⟨3, 7, 3, 0, .init, 10, 10⟩] : List Rec).filter fun r => decide (r.next ≤ now)).take 1 = [⟨2, 7, 2, 0, .init, 10, 10⟩] := by
          simp [h10]
        rw [this]
        have hpair : pairUp Starve.db [⟨2, 7, 2, 0, .init, 10, 10⟩] = [⟨⟨2, 7, 2, 0, .init, 10, 10⟩, ⟨2, ⟨2, 5, .fifo, 10, 0⟩, 0⟩⟩] := by decide +kernel
        rw [hpair]
        have hm : mayCall Starve.db 7 1 ⟨2, ⟨2, 5, .fifo, 10, 0⟩, 0⟩ = false := by decide +kernel
        have hany : (Starve.db.recs.any fun x => x.id == 2) = true := by decide +kernel
        have hsave : saveRec Starve.db ⟨2, 7, 2, 0, .init, 10, 10⟩ = Starve.db := by decide +kernel
        simp [handleAll, handle, hm, hany, hsave]
      · have : (([⟨2, 7, 2, 0, .init, 10, 10⟩, ⟨3, 7, 3, 0, .init, 10, 10⟩] : List Rec).filter fun r => decide (r.next ≤ now)).take 1 = [] := by
          simp [h10]
        rw [this]
        simp [pairUp, handleAll]
    · simp at hst

/-- **C49** is false of the code: the scan takes the first `LimitPerRun` due records, and FIFO events that wait for a predecessor that failed for good stay pending and due. With as many of them as the limit in front (one, here), the event of another sender is never handled,
whatever the handlers answer, at whatever times the runs are made. -/
theorem C49_starvation {c : Cfg} (hl : c.limit = 1) (ans : Nat → DEv → Ret) (times : List Nat) :
    runsAt c 7 ans times Starve.db = Starve.db ∧ ∀ t ∈ times, (handleEvents c 7 t ans Starve.db).2 = [] := by
  refine ⟨?_, fun t _ => by rw [handleEvents_starve hl]⟩
  induction times with
  | nil => rfl
  | cons t ts ih => rw [runsAt, handleEvents_starve hl]; exact ih

theorem scan_fitting {c : Cfg} {svc start now : Nat} {db : DB} (hv : Valid db) (hi : Integrity db)
    (hfit : (db.recs.countP fun r => decide (r.service = svc ∧ r.status = .init ∧ r.next ≤ now ∧ start ≤ r.eventId)) ≤ c.limit) {r : Rec} (hd : Due db svc start now r) :
    ∃ t ∈ scan db svc c.limit start now, t.r = r := by
  have hrw := C39_right_work hv hi svc c.limit start now
  by_contra hc
  have hnot : r ∉ (scan db svc c.limit start now).map Tuple.r := by
    intro h; obtain ⟨t, ht, h2⟩ := List.mem_map.1 h; exact hc ⟨t, ht, h2⟩
  obtain ⟨h1, h2⟩ := hrw.first r hd hnot
  have hsub : (r :: (scan db svc c.limit start now).map Tuple.r).length ≤ (db.recs.filter fun r => decide (r.service = svc ∧ r.status = .init ∧ r.next ≤ now ∧ start ≤ r.eventId)).length := by
    apply List.Subperm.length_le
    apply List.subperm_of_subset
    · rw [List.nodup_cons]
      refine ⟨hnot, ?_⟩
      rw [List.Nodup, List.pairwise_map]
      refine hrw.ordered.imp ?_
      intro a b hlt heq
      rw [heq] at hlt; omega
    · intro x hx
      rcases List.mem_cons.1 hx with rfl | hx
      · simp only [List.mem_filter, decide_eq_true_eq]
        exact ⟨hd.1, hd.2.1, hd.2.2.1, hd.2.2.2.1, hd.2.2.2.2⟩
      · obtain ⟨t, ht, rfl⟩ := List.mem_map.1 hx
        have := hrw.due t ht
        simp only [List.mem_filter, decide_eq_true_eq]
        exact ⟨this.1, this.2.1, this.2.2.1, this.2.2.2.1, this.2.2.2.2⟩
  rw [List.countP_eq_length_filter] at hfit
  rw [List.length_cons, List.length_map, h1] at hsub
  omega

theorem handleAll_calls_unordered {c : Cfg} {svc start now : Nat} {ans : Nat → DEv → Ret} (ts : List Tuple) (i : Nat) (db : DB) (hn : (db.recs.map Rec.id).Nodup)
    (h : ∀ t ∈ ts, t.r.key ∈ db.recs.map Rec.key) {t : Tuple} (ht : t ∈ ts) (hs : t.r.status = .init) (hu : t.e.ev.sendType ≠ .fifo ∧ t.e.ev.sendType ≠ .laxFifo) :
    t.e.ev ∈ (handleAll c svc start now ans i ts db).2 := by
  induction ts generalizing i db with
  | nil => simp at ht
  | cons t' ts ih =>
    simp only [handleAll, List.mem_append]
    rcases List.mem_cons.1 ht with rfl | ht
    · left
      obtain ⟨x, hx, hk⟩ := List.mem_map.1 (h t (by simp))
      have h1 : (db.recs.any fun x => x.id == t.r.id) = true := by
        rw [List.any_eq_true]; exact ⟨x, hx, by simp [(Rec.key_eq.1 hk).1]⟩
      simp [handle, h1, hs, mayCall, hu]
    · right
      have h1 := same_handle (c := c) (svc := svc) (start := start) (now := now) hn (h t' (by simp)) (ans i)
      exact ih _ _ (by rw [ids_of_keys h1.keys]; exact hn) (fun t'' ht'' => by rw [h1.keys]; exact h t'' (by simp [ht''])) ht

/-- **C49** (partial) In a run in which the due records fit into the limit the event of every due record is called unless it is ordered, whatever the other handlers do. Missing: backlogs larger than the limit (`C49_starvation`). -/
theorem C49_fitting_partial {c : Cfg} {svc start now : Nat} {ans : Nat → DEv → Ret} {db : DB} (hv : Valid db) (hi : Integrity db) (hw : IsWindowStart db c.window now start)
    (hfit : (db.recs.countP fun r => decide (r.service = svc ∧ r.status = .init ∧ r.next ≤ now ∧ start ≤ r.eventId)) ≤ c.limit) {r : Rec} (hd : Due db svc start now r) :
    ∃ e ∈ db.events, e.id = r.eventId ∧ (e.ev.sendType ≠ .fifo → e.ev.sendType ≠ .laxFifo → e.ev ∈ (handleEvents c svc now ans db).2) := by
  obtain ⟨t, ht, rfl⟩ := scan_fitting (c := c) hv hi hfit hd
  have hrw := C39_right_work hv hi svc c.limit start now
  refine ⟨t.e, (hrw.own t ht).1, (hrw.own t ht).2, fun h1 h2 => ?_⟩
  unfold handleEvents
  rw [C39_window_start.2 hw]
  exact handleAll_calls_unordered _ _ _ hv.recIds (fun t' ht' => List.mem_map_of_mem (hrw.due t' ht').1) ht hd.2.2.1 ⟨h1, h2⟩

end Ddd.Bus
