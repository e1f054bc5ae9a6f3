import Verif.Spec.BusLTS
import Verif.Props.BusScan
/-!
# The invariant of the MySQL event bus under all interleavings
-/
set_option linter.unusedVariables false
set_option linter.unusedSimpArgs false
namespace Ddd.Bus

def Scan.svc : Scan → Nat
  | .begun s _ => s
  | .offset s _ _ => s
  | .rows s _ _ => s

/-- records a scan has read -/
def Scan.recs : Scan → List Rec
  | .rows _ _ rs => rs
  | _ => []

def Disp.ps : Disp → List EvRow
  | .inserted ps => ps
  | .listed ps _ => ps

def Clean.svc : Clean → Nat
  | .todo s _ => s
  | .counting s _ _ => s
  | .deleting s _ _ => s

/-- event IDs whose records a cleaning may still delete -/
def Clean.ids : Clean → List Nat
  | .todo _ ids => ids
  | .counting _ _ rest => rest
  | .deleting _ _ rest => rest

theorem mem_saveRec {db : DB} {r x : Rec} : x ∈ (saveRec db r).recs ↔ (x = r ∧ ∃ y ∈ db.recs, y.id = r.id) ∨ (x ∈ db.recs ∧ x.id ≠ r.id) := by
  simp only [saveRec, List.mem_map]
  constructor
  · rintro ⟨y, hy, h⟩
    split at h
    · rename_i hi; exact .inl ⟨h.symm, y, hy, hi⟩
    · rename_i hi; subst h; exact .inr ⟨hy, hi⟩
  · rintro (⟨rfl, y, hy, hi⟩ | ⟨hx, hi⟩)
    · exact ⟨y, hy, by rw [if_pos hi]⟩
    · exact ⟨x, hx, by rw [if_neg hi]⟩

theorem HandledOk.mono {log log' : List Log} (h : ∀ x ∈ log, x ∈ log') {svc eid : Nat} (hh : HandledOk log svc eid) : HandledOk log' svc eid := by
  obtain ⟨x, hx, h2⟩ := hh; exact ⟨x, h x hx, h2⟩

theorem failures_append (l l' : List Log) (svc eid : Nat) : failures (l ++ l') svc eid = failures l svc eid + failures l' svc eid := List.countP_append

theorem failures_cons (x : Log) (l : List Log) (svc eid : Nat) : failures (x :: l) svc eid = failures l svc eid + if x.isFail svc eid then 1 else 0 := List.countP_cons

theorem GivesUp.mono {st : Strategy} {n m : Nat} (h : n ≤ m) (hg : GivesUp st n) : GivesUp st m := by
  obtain ⟨c, t, h1, h2⟩ := hg; exact ⟨c, t, by omega, h2⟩

/-- what the log must say about a delivery record or a copy of one -/
structure Backed (st : Strategy) (log : List Log) (r : Rec) : Prop where
  retry : r.retry ≤ failures log r.service r.eventId
  success : r.status = .success → HandledOk log r.service r.eventId
  failed : r.status = .failed → GivesUp st (failures log r.service r.eventId)
  expired : r.status = .expired → .expired r.service r.eventId ∈ log
  noPrec : r.status ≠ .precedingFailed

theorem failures_le {log log' : List Log} (h : ∃ l, log' = l ++ log) (svc eid : Nat) : failures log svc eid ≤ failures log' svc eid := by
  obtain ⟨l, rfl⟩ := h
  rw [failures_append]; omega

theorem Backed.mono {st : Strategy} {log log' : List Log} (h : ∃ l, log' = l ++ log) {r : Rec} (hb : Backed st log r) : Backed st log' r := by
  have hm : ∀ x ∈ log, x ∈ log' := by obtain ⟨l, rfl⟩ := h; intro x hx; simp [hx]
  exact ⟨hb.retry.trans (failures_le h _ _), fun hs => (hb.success hs).mono hm, fun hs => (hb.failed hs).mono (failures_le h _ _), fun hs => hm _ (hb.expired hs), hb.noPrec⟩

/-- a copy of a record somewhere in memory -/
def Off (s : State) (r : Rec) : Prop := (∃ sc ∈ s.scans, r ∈ sc.recs) ∨ (∃ j ∈ s.pend, j.t.r = r) ∨ ∃ j ∈ s.busy, j.t.r = r

/-- everything about the schema -/
structure Schema (s : State) : Prop where
  evIds : (s.db.events.map EvRow.id).Nodup
  evFresh : ∀ e ∈ s.db.events, e.id < s.db.nextEv
  ids : (s.db.recs.map Rec.id).Nodup
  recFresh : ∀ r ∈ s.db.recs, r.id < s.db.nextRec
  keys : (s.db.recs.map fun r => (r.service, r.eventId)).Nodup
  disp : ∀ d ∈ s.disps, (d.ps.map EvRow.id).Nodup
  off : ∀ r, Off s r → r.id < s.db.nextRec ∧ ∀ x ∈ s.db.recs, x.id = r.id → x.key = r.key

/-- copies in memory -/
structure Copies (s : State) : Prop where
  init : ∀ r, Off s r → r.status = .init
  scan : ∀ sc ∈ s.scans, ∀ r ∈ sc.recs, r.service = sc.svc
  pend : ∀ j ∈ s.pend, j.t.r.service = j.svc
  busy : ∀ j ∈ s.busy, j.t.r.service = j.svc
  order : ∀ sc ∈ s.scans, sc.recs.Pairwise fun a b => a.eventId < b.eventId

theorem keys_saveRec {s : State} (h : Schema s) {r : Rec} (ho : ∀ x ∈ s.db.recs, x.id = r.id → x.key = r.key) : (saveRec s.db r).recs.map Rec.key = s.db.recs.map Rec.key := by
  simp only [saveRec, List.map_map]
  apply List.map_congr_left
  intro x hx
  simp only [Function.comp]
  split
  · rename_i hi; exact (ho x hx hi).symm
  · rfl

theorem schema_saveRec {s s' : State} (h : Schema s) {r : Rec} (ho : ∀ x ∈ s.db.recs, x.id = r.id → x.key = r.key) (hdb : s'.db = saveRec s.db r) (hd : ∀ d ∈ s'.disps, d ∈ s.disps)
    (hoff : ∀ r, Off s' r → Off s r) : Schema s' := by
  have hk := keys_saveRec h ho
  refine ⟨?_, ?_, ?_, ?_, ?_, fun d hd' => h.disp d (hd d hd'), ?_⟩
  · rw [hdb]; exact h.evIds
  · rw [hdb]; exact h.evFresh
  · rw [hdb, ids_of_keys hk]; exact h.ids
  · intro x hx
    rw [hdb] at hx ⊢
    obtain ⟨y, hy, hyk⟩ := mem_of_keys hk hx
    rw [← (Rec.key_eq.1 hyk).1]; exact h.recFresh y hy
  · rw [hdb, svcs_of_keys hk]; exact h.keys
  · intro x hx
    have := h.off x (hoff x hx)
    rw [hdb]
    refine ⟨this.1, ?_⟩
    intro y hy hi
    obtain ⟨z, hz, hzk⟩ := mem_of_keys hk hy
    rw [← hzk]; exact this.2 z hz (by rw [← hi, (Rec.key_eq.1 hzk).1])

theorem off_erase_pend {s : State} {j : Job} {r : Rec} (h : Off { s with pend := s.pend.erase j } r) : Off s r := by
  rcases h with h | ⟨x, hx, h⟩ | h
  · exact .inl h
  · exact .inr (.inl ⟨x, List.mem_of_mem_erase hx, h⟩)
  · exact .inr (.inr h)

theorem off_erase_busy {s : State} {j : Job} {r : Rec} (h : Off { s with busy := s.busy.erase j } r) : Off s r := by
  rcases h with h | h | ⟨x, hx, h⟩
  · exact .inl h
  · exact .inr (.inl h)
  · exact .inr (.inr ⟨x, List.mem_of_mem_erase hx, h⟩)

theorem off_erase_scan {s : State} {sc : Scan} {r : Rec} (h : Off { s with scans := s.scans.erase sc } r) : Off s r := by
  rcases h with ⟨x, hx, h⟩ | h | h
  · exact .inl ⟨x, List.mem_of_mem_erase hx, h⟩
  · exact .inr (.inl h)
  · exact .inr (.inr h)

theorem off_call {s : State} {j : Job} (hj : j ∈ s.pend) {l : List Log} {r : Rec} (h : Off { s with pend := s.pend.erase j, busy := j :: s.busy, log := l } r) : Off s r := by
  rcases h with h | ⟨x, hx, h⟩ | ⟨x, hx, h⟩
  · exact .inl h
  · exact .inr (.inl ⟨x, List.mem_of_mem_erase hx, h⟩)
  · rcases List.mem_cons.1 hx with rfl | hx
    · exact .inr (.inl ⟨x, hj, h⟩)
    · exact .inr (.inr ⟨x, hx, h⟩)

theorem off_scanEvents {s : State} {svc start : Nat} {rs : List Rec} (h : Scan.rows svc start rs ∈ s.scans) {db : DB} {r : Rec}
    (ho : Off { s with scans := s.scans.erase (.rows svc start rs), pend := (pairUp db rs).map (fun t => ⟨svc, start, t⟩) ++ s.pend } r) : Off s r := by
  rcases ho with ⟨x, hx, ho⟩ | ⟨x, hx, ho⟩ | ho
  · exact .inl ⟨x, List.mem_of_mem_erase hx, ho⟩
  · rcases List.mem_append.1 hx with hx | hx
    · obtain ⟨t, ht, rfl⟩ := List.mem_map.1 hx
      have := (mem_pairUp ht).1
      exact .inl ⟨_, h, by subst ho; exact this⟩
    · exact .inr (.inl ⟨x, hx, ho⟩)
  · exact .inr (.inr ho)

theorem off_scan_nil {s : State} {sc sc' : Scan} (hn : sc'.recs = []) {r : Rec} (h : Off { s with scans := sc' :: s.scans.erase sc } r) : Off s r := by
  rcases h with ⟨x, hx, h⟩ | h | h
  · rcases List.mem_cons.1 hx with rfl | hx
    · rw [hn] at h; simp at h
    · exact .inl ⟨x, List.mem_of_mem_erase hx, h⟩
  · exact .inr (.inl h)
  · exact .inr (.inr h)

theorem fifo_of_blocked {db : DB} {svc start : Nat} {e : EvRow} (h : mayCall db svc start e = false) : e.ev.sendType = .fifo ∨ e.ev.sendType = .laxFifo := by
  unfold mayCall at h
  split at h
  · assumption
  · cases h

/-- a scan adds copies of current rows -/
theorem off_scanRows {s : State} {svc start off : Nat} {lim : Nat} {r : Rec} {t0 a : Nat} (ht : t0 ≤ s.now + a)
    (h : Off { s with scans := .rows svc start (((pendingFrom s.db svc off).filter fun r => decide (r.next ≤ t0)).take lim) :: s.scans.erase (.offset svc start off) } r) :
    Off s r ∨ (r ∈ s.db.recs ∧ r.service = svc ∧ r.status = .init ∧ r.next ≤ s.now + a) := by
  rcases h with ⟨x, hx, h⟩ | h | h
  · rcases List.mem_cons.1 hx with rfl | hx
    · right
      have h := List.mem_of_mem_take h
      simp only [List.mem_filter, decide_eq_true_eq] at h
      have := mem_pendingFrom.1 h.1
      exact ⟨this.1, this.2.1, this.2.2.1, Nat.le_trans h.2 ht⟩
    · exact .inl (.inl ⟨x, List.mem_of_mem_erase hx, h⟩)
  · exact .inl (.inr (.inl h))
  · exact .inl (.inr (.inr h))

/-- nothing relevant changed -/
theorem Schema.same {s s' : State} (h : Schema s) (hdb : s'.db = s.db) (hd : ∀ d ∈ s'.disps, d ∈ s.disps) (hoff : ∀ r, Off s' r → Off s r) : Schema s' := by
  refine ⟨?_, ?_, ?_, ?_, ?_, fun d hd' => h.disp d (hd d hd'), ?_⟩
  all_goals (try rw [hdb])
  · exact h.evIds
  · exact h.evFresh
  · exact h.ids
  · exact h.recFresh
  · exact h.keys
  · intro r hr; exact h.off r (hoff r hr)

theorem schema_step {c : Cfg} {pol : Pol} {s s' : State} (h : Schema s) (hst : Step c pol s s') : Schema s' := by
  cases hst with
  | tick d => exact h.same rfl (fun _ h => h) fun _ h => h
  | txBegin svc timeout es he t0 ht => exact ⟨h.evIds, h.evFresh, h.ids, h.recFresh, h.keys, h.disp, h.off⟩
  | txDelete tid => exact ⟨h.evIds, h.evFresh, h.ids, h.recFresh, h.keys, h.disp, h.off⟩
  | register svc =>
    have e1 : (register s.db svc).events = s.db.events ∧ (register s.db svc).recs = s.db.recs ∧ (register s.db svc).nextEv = s.db.nextEv ∧ (register s.db svc).nextRec = s.db.nextRec := by
      unfold register; split <;> exact ⟨rfl, rfl, rfl, rfl⟩
    refine ⟨?_, ?_, ?_, ?_, ?_, h.disp, ?_⟩ <;> simp only [e1.1, e1.2.1, e1.2.2.1, e1.2.2.2]
    · exact h.evIds
    · exact h.evFresh
    · exact h.ids
    · exact h.recFresh
    · exact h.keys
    · exact h.off
  | dispInsert tid es he =>
    refine ⟨?_, ?_, h.ids, h.recFresh, h.keys, ?_, h.off⟩
    · simp only [insertEvents, List.map_append, newEvents_ids]
      rw [List.nodup_append]
      refine ⟨h.evIds, List.nodup_range', ?_⟩
      intro a ha b hb hab
      obtain ⟨e, he, rfl⟩ := List.mem_map.1 ha
      have := h.evFresh e he
      rw [List.mem_range'_1] at hb
      omega
    · intro e he
      rcases List.mem_append.1 he with he | he
      · have := h.evFresh e he; simp only [insertEvents]; omega
      · have := (mem_newEvents he).2.2; simpa [insertEvents] using this
    · intro d hd
      rcases List.mem_cons.1 hd with rfl | hd
      · simp only [Disp.ps, newEvents_ids]; exact List.nodup_range'
      · exact h.disp d hd
  | dispList ps hps =>
    refine ⟨h.evIds, h.evFresh, h.ids, h.recFresh, h.keys, ?_, h.off⟩
    intro d hd
    rcases List.mem_cons.1 hd with rfl | hd
    · exact h.disp (.inserted ps) hps
    · exact h.disp d (List.mem_of_mem_erase hd)
  | dispRecs ps svc todo hps hu =>
    have hnd : (ps.map EvRow.id).Nodup := h.disp _ hps
    refine ⟨h.evIds, h.evFresh, ?_, ?_, ?_, ?_, ?_⟩
    · simp only [insertRecs, List.map_append, newRecs_ids]
      rw [List.nodup_append]
      refine ⟨h.ids, List.nodup_range', ?_⟩
      intro a ha b hb hab
      obtain ⟨e, he, rfl⟩ := List.mem_map.1 ha
      have := h.recFresh e he
      rw [List.mem_range'_1] at hb
      omega
    · intro r hr
      rcases List.mem_append.1 hr with hr | hr
      · have := h.recFresh r hr; simp only [insertRecs]; omega
      · have h1 : r.id ∈ (newRecs s.db.nextRec svc ps).map Rec.id := List.mem_map_of_mem hr
        rw [newRecs_ids, List.mem_range'_1] at h1
        exact h1.2
    · simp only [insertRecs, List.map_append]
      rw [List.nodup_append]
      refine ⟨h.keys, ?_, ?_⟩
      · apply List.Nodup.of_map Prod.snd
        simp only [List.map_map]
        have : (Prod.snd ∘ fun r : Rec => (r.service, r.eventId)) = Rec.eventId := rfl
        rw [this, newRecs_eventIds]; exact hnd
      · intro a ha b hb hab
        obtain ⟨r, hr, rfl⟩ := List.mem_map.1 ha
        obtain ⟨r', hr', rfl⟩ := List.mem_map.1 hb
        obtain ⟨p, hp1, hp2⟩ := newRecs_fresh hr'
        simp only [Prod.mk.injEq] at hab
        exact hu r hr (hab.1.trans hp2.1) p hp1 (hab.2.trans hp2.2.1)
    · intro d hd
      rcases List.mem_cons.1 hd with rfl | hd
      · exact hnd
      · exact h.disp d (List.mem_of_mem_erase hd)
    · intro r hr
      have := h.off r hr
      refine ⟨by simp only [insertRecs]; omega, ?_⟩
      intro x hx hi
      rcases List.mem_append.1 hx with hx | hx
      · exact this.2 x hx hi
      · have h1 : x.id ∈ (newRecs s.db.nextRec svc ps).map Rec.id := List.mem_map_of_mem hx
        rw [newRecs_ids, List.mem_range'_1] at h1
        omega
  | dispDrop d => exact h.same rfl (fun _ h => List.mem_of_mem_erase h) fun _ h => h
  | scanBegin svc start t0 ht hs =>
    refine h.same rfl (fun _ h => h) ?_
    intro r hr
    rcases hr with ⟨x, hx, hr⟩ | hr | hr
    · rcases List.mem_cons.1 hx with rfl | hx
      · simp [Scan.recs] at hr
      · exact .inl ⟨x, hx, hr⟩
    · exact .inr (.inl hr)
    · exact .inr (.inr hr)
  | scanOffset svc start r0 hs h0 => exact h.same rfl (fun _ h => h) fun r hr => off_scan_nil (by rfl) hr
  | scanRows svc start off hs t0 ht =>
    refine ⟨h.evIds, h.evFresh, h.ids, h.recFresh, h.keys, h.disp, ?_⟩
    intro r hr
    rcases off_scanRows ht hr with hr | hr
    · exact h.off r hr
    · refine ⟨h.recFresh r hr.1, ?_⟩
      intro x hx hi
      rw [List.inj_on_of_nodup_map h.ids hx hr.1 hi]
  | scanEvents svc start rs hs hc => exact h.same rfl (fun _ h => h) fun r hr => off_scanEvents hs hr
  | scanDrop sc => exact h.same rfl (fun _ h => h) fun r hr => off_erase_scan hr
  | call j hj hl hx hs hm hf => exact h.same rfl (fun _ h => h) fun r hr => off_call hj hr
  | blocked j hj hl hx hs hm hf =>
    exact schema_saveRec h (h.off j.t.r (.inr (.inl ⟨j, hj, rfl⟩))).2 rfl (fun _ h => h) fun r hr => off_erase_pend hr
  | jobDrop j => exact h.same rfl (fun _ h => h) fun r hr => off_erase_pend hr
  | finish j ret hj t0 ht =>
    refine schema_saveRec h ?_ rfl (fun _ h => h) fun r hr => off_erase_busy hr
    intro x hx hi
    rw [afterCall_key]
    exact (h.off j.t.r (.inr (.inr ⟨j, hj, rfl⟩))).2 x hx (by simpa using hi)
  | finishLost j ret hj hp t0 ht => exact h.same rfl (fun _ h => h) fun r hr => off_erase_busy hr
  | crash j hp => exact h.same rfl (fun _ h => h) fun r hr => off_erase_busy hr
  | cleanSelect svc t0 ht => exact h.same rfl (fun _ h => h) fun _ h => h
  | cleanRecs svc b rest hb hl =>
    have hsub : (deleteRecs s.db svc b).recs.Sublist s.db.recs := List.filter_sublist
    refine ⟨h.evIds, h.evFresh, h.ids.sublist (hsub.map _), fun r hr => h.recFresh r (hsub.subset hr), h.keys.sublist (hsub.map _), h.disp, ?_⟩
    intro r hr
    have := h.off r hr
    exact ⟨this.1, fun x hx hi => this.2 x (hsub.subset hx) hi⟩
  | cleanCount svc b rest hb => exact h.same rfl (fun _ h => h) fun _ h => h
  | cleanEvents svc d rest hd =>
    have hsub : (deleteEvents s.db d).events.Sublist s.db.events := List.filter_sublist
    exact ⟨h.evIds.sublist (hsub.map _), fun e he => h.evFresh e (hsub.subset he), h.ids, h.recFresh, h.keys, h.disp, h.off⟩
  | cleanDrop x => exact h.same rfl (fun _ h => h) fun _ h => h
  | expire r hr hl hp =>
    refine schema_saveRec h (r := { r with status := .expired }) ?_ rfl (fun _ h => h) fun _ h => h
    intro x hx hi
    have : x = r := List.inj_on_of_nodup_map h.ids hx hr hi
    rw [this]; rfl

theorem copies_step {c : Cfg} {pol : Pol} {s s' : State} (hsc : Schema s) (h : Copies s) (hst : Step c pol s s') : Copies s' := by
  have same : ∀ s' : State, (∀ r, Off s' r → Off s r) → (∀ sc ∈ s'.scans, sc ∈ s.scans ∨ sc.recs = []) → (∀ j ∈ s'.pend, j ∈ s.pend) → (∀ j ∈ s'.busy, j ∈ s.busy ∨ j ∈ s.pend) → Copies s' := by
    intro s' h1 h2 h3 h4
    refine ⟨fun r hr => h.init r (h1 r hr), ?_, fun j hj => h.pend j (h3 j hj), fun j hj => (h4 j hj).elim (h.busy j) (h.pend j), ?_⟩
    · intro sc hs r hr
      rcases h2 sc hs with h2 | h2
      · exact h.scan sc h2 r hr
      · rw [h2] at hr; simp at hr
    · intro sc hs
      rcases h2 sc hs with h2 | h2
      · exact h.order sc h2
      · rw [h2]; exact .nil
  have nil : ∀ {sc sc' : Scan}, sc'.recs = [] → ∀ x ∈ sc' :: s.scans.erase sc, x ∈ s.scans ∨ x.recs = [] := by
    intro sc sc' hn x hx
    rcases List.mem_cons.1 hx with rfl | hx
    · exact .inr hn
    · exact .inl (List.mem_of_mem_erase hx)
  cases hst with
  | tick d => exact same _ (fun _ h => h) (fun _ h => .inl h) (fun _ h => h) fun _ h => .inl h
  | txBegin svc timeout es he t0 ht => exact same _ (fun _ h => h) (fun _ h => .inl h) (fun _ h => h) fun _ h => .inl h
  | txDelete tid => exact same _ (fun _ h => h) (fun _ h => .inl h) (fun _ h => h) fun _ h => .inl h
  | register svc => exact same _ (fun _ h => h) (fun _ h => .inl h) (fun _ h => h) fun _ h => .inl h
  | dispInsert tid es he => exact same _ (fun _ h => h) (fun _ h => .inl h) (fun _ h => h) fun _ h => .inl h
  | dispList ps hps => exact same _ (fun _ h => h) (fun _ h => .inl h) (fun _ h => h) fun _ h => .inl h
  | dispRecs ps svc todo hps hu => exact same _ (fun _ h => h) (fun _ h => .inl h) (fun _ h => h) fun _ h => .inl h
  | dispDrop d => exact same _ (fun _ h => h) (fun _ h => .inl h) (fun _ h => h) fun _ h => .inl h
  | scanBegin svc start t0 ht hs =>
    refine same _ ?_ ?_ (fun _ h => h) fun _ h => .inl h
    · intro r hr
      rcases hr with ⟨x, hx, hr⟩ | hr | hr
      · rcases List.mem_cons.1 hx with rfl | hx
        · simp [Scan.recs] at hr
        · exact .inl ⟨x, hx, hr⟩
      · exact .inr (.inl hr)
      · exact .inr (.inr hr)
    · intro x hx
      rcases List.mem_cons.1 hx with rfl | hx
      · exact .inr rfl
      · exact .inl hx
  | scanOffset svc start r0 hs h0 => exact same _ (fun r hr => off_scan_nil (by rfl) hr) (nil rfl) (fun _ h => h) fun _ h => .inl h
  | scanRows svc start off hs t0 ht =>
    refine ⟨?_, ?_, h.pend, h.busy, ?_⟩
    · intro r hr
      rcases off_scanRows ht hr with hr | hr
      · exact h.init r hr
      · exact hr.2.2.1
    · intro sc hsc' r hr
      rcases List.mem_cons.1 hsc' with rfl | hsc'
      · have hr := List.mem_of_mem_take hr
        exact (mem_pendingFrom.1 (List.mem_of_mem_filter hr)).2.1
      · exact h.scan sc (List.mem_of_mem_erase hsc') r hr
    · intro sc hsc'
      rcases List.mem_cons.1 hsc' with rfl | hsc'
      · have hst : (pendingFrom s.db svc off).Pairwise fun a b => a.eventId < b.eventId := by
          have hs := pendingFrom_sorted s.db svc off
          have hp := List.perm_insertionSort (fun a b : Rec => a.eventId ≤ b.eventId) (s.db.recs.filter fun r => r.service == svc && decide (r.status = .init) && decide (off ≤ r.eventId))
          have hk : ((pendingFrom s.db svc off).map fun r => (r.service, r.eventId)).Nodup :=
            (hp.map fun r : Rec => (r.service, r.eventId)).nodup_iff.2 (hsc.keys.sublist (List.filter_sublist.map _))
          have hk' : (pendingFrom s.db svc off).Pairwise fun a b => (a.service, a.eventId) ≠ (b.service, b.eventId) := List.pairwise_map.1 hk
          refine (hs.and hk').imp_of_mem ?_
          intro a b ha hb hab
          have h1 := (mem_pendingFrom.1 ha).2.1
          have h2 := (mem_pendingFrom.1 hb).2.1
          obtain ⟨h3, h4⟩ := hab
          rcases Nat.lt_or_eq_of_le h3 with h | h
          · exact h
          · exact absurd (by rw [h1, h2, h]) h4
        exact (hst.sublist List.filter_sublist).sublist (List.take_sublist _ _)
      · exact h.order sc (List.mem_of_mem_erase hsc')
  | scanEvents svc start rs hs hc =>
    refine ⟨fun r hr => h.init r (off_scanEvents hs hr), fun sc hsc' => h.scan sc (List.mem_of_mem_erase hsc'), ?_, h.busy, fun sc hsc' => h.order sc (List.mem_of_mem_erase hsc')⟩
    intro j hj
    rcases List.mem_append.1 hj with hj | hj
    · obtain ⟨t, ht, rfl⟩ := List.mem_map.1 hj
      exact h.scan _ hs t.r (mem_pairUp ht).1
    · exact h.pend j hj
  | scanDrop sc => exact same _ (fun r hr => off_erase_scan hr) (fun _ h => .inl (List.mem_of_mem_erase h)) (fun _ h => h) fun _ h => .inl h
  | call j hj hl hx hs hm hf =>
    refine same _ (fun r hr => off_call hj hr) (fun _ h => .inl h) (fun _ h => List.mem_of_mem_erase h) fun x hx => ?_
    rcases List.mem_cons.1 hx with rfl | hx
    · exact .inr hj
    · exact .inl hx
  | blocked j hj hl hx hs hm hf => exact same _ (fun r hr => off_erase_pend hr) (fun _ h => .inl h) (fun _ h => List.mem_of_mem_erase h) fun _ h => .inl h
  | jobDrop j => exact same _ (fun r hr => off_erase_pend hr) (fun _ h => .inl h) (fun _ h => List.mem_of_mem_erase h) fun _ h => .inl h
  | finish j ret hj t0 ht => exact same _ (fun r hr => off_erase_busy hr) (fun _ h => .inl h) (fun _ h => h) fun _ h => .inl (List.mem_of_mem_erase h)
  | finishLost j ret hj hp t0 ht => exact same _ (fun r hr => off_erase_busy hr) (fun _ h => .inl h) (fun _ h => h) fun _ h => .inl (List.mem_of_mem_erase h)
  | crash j hp => exact same _ (fun r hr => off_erase_busy hr) (fun _ h => .inl h) (fun _ h => h) fun _ h => .inl (List.mem_of_mem_erase h)
  | cleanSelect svc t0 ht => exact same _ (fun _ h => h) (fun _ h => .inl h) (fun _ h => h) fun _ h => .inl h
  | cleanRecs svc b rest hb hl => exact same _ (fun _ h => h) (fun _ h => .inl h) (fun _ h => h) fun _ h => .inl h
  | cleanCount svc b rest hb => exact same _ (fun _ h => h) (fun _ h => .inl h) (fun _ h => h) fun _ h => .inl h
  | cleanEvents svc d rest hd => exact same _ (fun _ h => h) (fun _ h => .inl h) (fun _ h => h) fun _ h => .inl h
  | cleanDrop x => exact same _ (fun _ h => h) (fun _ h => .inl h) (fun _ h => h) fun _ h => .inl h
  | expire r hr hl hp => exact same _ (fun _ h => h) (fun _ h => .inl h) (fun _ h => h) fun _ h => .inl h

theorem schema_reachable {c : Cfg} {pol : Pol} {s : State} (h : Reachable c pol s) : Schema s ∧ Copies s := by
  induction h with
  | init =>
    refine ⟨⟨by simp [State.init], by simp [State.init], by simp [State.init], by simp [State.init], by simp [State.init], by simp [State.init], ?_⟩,
      ⟨?_, by simp [State.init], by simp [State.init], by simp [State.init], by simp [State.init]⟩⟩
    all_goals
      intro r hr
      rcases hr with ⟨x, hx, _⟩ | ⟨x, hx, _⟩ | ⟨x, hx, _⟩ <;> simp [State.init] at hx
  | step _ hst ih => exact ⟨schema_step ih.1 hst, copies_step ih.1 ih.2 hst⟩

/-! ## nothing is lost -/

structure Safe (st : Strategy) (s : State) : Prop where
  rows : ∀ r ∈ s.db.recs, Backed st s.log r
  off : ∀ r, Off s r → r.retry ≤ failures s.log r.service r.eventId
  pend : ∀ j ∈ s.pend, j.t.e.id = j.t.r.eventId
  busy : ∀ j ∈ s.busy, j.t.e.id = j.t.r.eventId
  clean : ∀ x ∈ s.cleans, ∀ i ∈ x.ids, HandledOk s.log x.svc i
  stored : ∀ svc eid, .stored svc eid ∈ s.log → (∃ r ∈ s.db.recs, r.service = svc ∧ r.eventId = eid) ∨ HandledOk s.log svc eid

/-- the database is the same and nothing new is in memory -/
theorem Safe.same {st : Strategy} {s s' : State} (h : Safe st s) (hr : s'.db.recs = s.db.recs) (hl : ∃ l, s'.log = l ++ s.log ∧ ∀ x ∈ l, ∀ svc eid, x ≠ .stored svc eid) (hoff : ∀ r, Off s' r → Off s r)
    (hp : ∀ j ∈ s'.pend, j ∈ s.pend) (hb : ∀ j ∈ s'.busy, j ∈ s.busy ∨ j ∈ s.pend) (hc : ∀ x ∈ s'.cleans, ∀ i ∈ x.ids, HandledOk s.log x.svc i) : Safe st s' := by
  obtain ⟨l, hl, hns⟩ := hl
  have hm : ∀ x ∈ s.log, x ∈ s'.log := fun x hx => by rw [hl]; simp [hx]
  refine ⟨?_, fun r hr' => (h.off r (hoff r hr')).trans (failures_le ⟨l, hl⟩ _ _), fun j hj => h.pend j (hp j hj), fun j hj => (hb j hj).elim (h.busy j) (h.pend j),
    fun x hx i hi => (hc x hx i hi).mono hm, ?_⟩
  · rw [hr]; intro r hr'; exact (h.rows r hr').mono ⟨l, hl⟩
  · intro svc eid hs
    rw [hl] at hs
    rcases List.mem_append.1 hs with hs | hs
    · exact absurd rfl (hns _ hs svc eid)
    · rw [hr]; exact (h.stored svc eid hs).imp id fun h => h.mono hm

theorem backed_afterCall {st : Strategy} (hc : Counting st) {log : List Log} {r : Rec} {svc eid : Nat} {e : EvRow} {ret : Ret} {now : Nat} {sv : Bool} (h1 : r.retry ≤ failures log r.service r.eventId)
    (h2 : r.status = .init) (hs : r.service = svc) (he : r.eventId = eid) (hee : e.id = eid) :
    Backed st (.returned svc eid e ret now sv :: log) (afterCall st now r ret) := by
  have hf : ret ≠ .ok → failures (.returned svc eid e ret now sv :: log) r.service r.eventId = failures log r.service r.eventId + 1 := by
    intro hr
    rw [failures_cons]
    simp [Log.isFail, hs, he, hr]
  have hok : HandledOk (.returned svc eid e .ok now sv :: log) svc eid := ⟨_, List.mem_cons_self .., by simp [Log.isOk, hee]⟩
  have hretry : ∀ ret, ret ≠ .ok → failures (.returned svc eid e ret now sv :: log) r.service r.eventId = failures log r.service r.eventId + 1 → Backed st (.returned svc eid e ret now sv :: log) (retryStep st now r) := by
    intro ret hr hf
    unfold retryStep
    split
    · rename_i k t hk
      have := hc _ _ _ _ hk
      refine ⟨?_, ?_, ?_, ?_, ?_⟩ <;> simp only [h2] <;> (try simp)
      omega
    · rename_i hk
      refine ⟨?_, ?_, ?_, ?_, ?_⟩ <;> simp only [hf] <;> (try simp)
      · omega
      · exact ⟨r.retry, now, by omega, hk⟩
  cases ret with
  | ok =>
    refine ⟨?_, ?_, ?_, ?_, ?_⟩ <;> simp only [afterCall] <;> (try simp)
    · rw [failures_cons]; omega
    · rw [hs, he]; exact hok
  | err => exact hretry _ (by simp) (hf (by simp))
  | panic => exact hretry _ (by simp) (hf (by simp))

theorem backed_newRecs {st : Strategy} {log : List Log} {f svc : Nat} {ps : List EvRow} {r : Rec} (h : r ∈ newRecs f svc ps) : Backed st log r := by
  obtain ⟨p, hp, h⟩ := newRecs_fresh h
  refine ⟨by rw [h.2.2.2.1]; omega, ?_, ?_, ?_, ?_⟩ <;> rw [h.2.2.1] <;> simp

/-- saving a copy keeps the row -/
theorem exists_saveRec {db : DB} {r : Rec} (ho : ∀ x ∈ db.recs, x.id = r.id → x.key = r.key) {svc eid : Nat} (h : ∃ x ∈ db.recs, x.service = svc ∧ x.eventId = eid) :
    ∃ x ∈ (saveRec db r).recs, x.service = svc ∧ x.eventId = eid := by
  obtain ⟨x, hx, h1, h2⟩ := h
  by_cases hi : x.id = r.id
  · have := Rec.key_eq.1 (ho x hx hi)
    exact ⟨r, mem_saveRec.2 (.inl ⟨rfl, x, hx, hi⟩), by rw [← this.2.1, h1], by rw [← this.2.2, h2]⟩
  · exact ⟨x, mem_saveRec.2 (.inr ⟨hx, hi⟩), h1, h2⟩

theorem safe_step {c : Cfg} {pol : Pol} (hcalm : pol.calm = true) (hcount : Counting c.strategy) {s s' : State} (hsc : Schema s) (hco : Copies s) (h : Safe c.strategy s) (hst : Step c pol s s') :
    Safe c.strategy s' := by
  have nolog : ∃ l, s.log = l ++ s.log ∧ ∀ x ∈ l, ∀ svc eid, x ≠ Log.stored svc eid := ⟨[], by simp, by simp⟩
  have one : ∀ y : Log, (∀ svc eid, y ≠ .stored svc eid) → ∃ l, y :: s.log = l ++ s.log ∧ ∀ x ∈ l, ∀ svc eid, x ≠ Log.stored svc eid :=
    fun y hy => ⟨[y], by simp, by intro x hx; simp at hx; subst hx; exact hy⟩
  cases hst with
  | tick d => exact h.same rfl nolog (fun _ h => h) (fun _ h => h) (fun _ h => .inl h) h.clean
  | txBegin svc timeout es he t0 ht => exact h.same rfl nolog (fun _ h => h) (fun _ h => h) (fun _ h => .inl h) h.clean
  | txDelete tid => exact h.same rfl nolog (fun _ h => h) (fun _ h => h) (fun _ h => .inl h) h.clean
  | register svc =>
    refine h.same ?_ nolog (fun _ h => h) (fun _ h => h) (fun _ h => .inl h) h.clean
    unfold register; dsimp only; split <;> rfl
  | dispInsert tid es he => exact h.same rfl nolog (fun _ h => h) (fun _ h => h) (fun _ h => .inl h) h.clean
  | dispList ps hps => exact h.same rfl nolog (fun _ h => h) (fun _ h => h) (fun _ h => .inl h) h.clean
  | dispRecs ps svc todo hps hu =>
    have hm : ∀ x ∈ s.log, x ∈ ps.map (fun p => Log.stored svc p.id) ++ s.log := fun x hx => by simp [hx]
    have hle : ∀ a b, failures s.log a b ≤ failures (ps.map (fun p => Log.stored svc p.id) ++ s.log) a b := fun a b => failures_le ⟨_, rfl⟩ a b
    refine ⟨?_, fun r hr => (h.off r hr).trans (hle _ _), h.pend, h.busy, fun x hx i hi => (h.clean x hx i hi).mono hm, ?_⟩
    · intro r hr
      rcases List.mem_append.1 hr with hr | hr
      · exact (h.rows r hr).mono ⟨_, rfl⟩
      · exact backed_newRecs hr
    · intro svc' eid hs
      rcases List.mem_append.1 hs with hs | hs
      · obtain ⟨p, hp, heq⟩ := List.mem_map.1 hs
        simp only [Log.stored.injEq] at heq
        obtain ⟨rfl, rfl⟩ := heq
        left
        have : p.id ∈ (newRecs s.db.nextRec svc ps).map Rec.eventId := by rw [newRecs_eventIds]; exact List.mem_map_of_mem hp
        obtain ⟨r, hr, hri⟩ := List.mem_map.1 this
        exact ⟨r, List.mem_append.2 (.inr hr), newRecs_service hr, hri⟩
      · rcases h.stored svc' eid hs with ⟨r, hr, h2⟩ | h2
        · exact .inl ⟨r, List.mem_append.2 (.inl hr), h2⟩
        · exact .inr (h2.mono hm)
  | dispDrop d => exact h.same rfl nolog (fun _ h => h) (fun _ h => h) (fun _ h => .inl h) h.clean
  | scanBegin svc start t0 ht hs =>
    refine h.same rfl nolog ?_ (fun _ h => h) (fun _ h => .inl h) h.clean
    intro r hr
    rcases hr with ⟨x, hx, hr⟩ | hr | hr
    · rcases List.mem_cons.1 hx with rfl | hx
      · simp [Scan.recs] at hr
      · exact .inl ⟨x, hx, hr⟩
    · exact .inr (.inl hr)
    · exact .inr (.inr hr)
  | scanOffset svc start r0 hs h0 => exact h.same rfl nolog (fun r hr => off_scan_nil (by rfl) hr) (fun _ h => h) (fun _ h => .inl h) h.clean
  | scanRows svc start off hs t0 ht =>
    refine ⟨h.rows, ?_, h.pend, h.busy, h.clean, h.stored⟩
    intro r hr
    rcases off_scanRows ht hr with hr | hr
    · exact h.off r hr
    · exact (h.rows r hr.1).retry
  | scanEvents svc start rs hs hc =>
    refine ⟨h.rows, fun r hr => h.off r (off_scanEvents hs hr), ?_, h.busy, h.clean, h.stored⟩
    intro j hj
    rcases List.mem_append.1 hj with hj | hj
    · obtain ⟨t, ht, rfl⟩ := List.mem_map.1 hj
      exact (pairUp_own hsc.evIds (hco.order _ hs) (hc hcalm)).2 t ht
    · exact h.pend j hj
  | scanDrop sc => exact h.same rfl nolog (fun r hr => off_erase_scan hr) (fun _ h => h) (fun _ h => .inl h) h.clean
  | call j hj hl hx hs hm hf =>
    refine h.same rfl (one _ (by simp)) (fun r hr => off_call hj hr) (fun _ h => List.mem_of_mem_erase h) ?_ h.clean
    intro x hx
    rcases List.mem_cons.1 hx with rfl | hx
    · exact .inr hj
    · exact .inl hx
  | blocked j hj hl hx hs hm hf =>
    have hoff : Off s j.t.r := .inr (.inl ⟨j, hj, rfl⟩)
    refine ⟨?_, fun r hr => h.off r (off_erase_pend hr), fun x hx => h.pend x (List.mem_of_mem_erase hx), h.busy, h.clean, ?_⟩
    · intro r hr
      rcases mem_saveRec.1 hr with ⟨rfl, -⟩ | ⟨hr, -⟩
      · exact ⟨h.off _ hoff, by simp [hs], by simp [hs], by simp [hs], by simp [hs]⟩
      · exact h.rows r hr
    · intro svc eid hss
      exact (h.stored svc eid hss).imp (exists_saveRec (hsc.off _ hoff).2) id
  | jobDrop j => exact h.same rfl nolog (fun r hr => off_erase_pend hr) (fun _ h => List.mem_of_mem_erase h) (fun _ h => .inl h) h.clean
  | finish j ret hj t0 ht =>
    have hoff : Off s j.t.r := .inr (.inr ⟨j, hj, rfl⟩)
    have hm : ∀ x ∈ s.log, x ∈ Log.returned j.svc j.t.r.eventId j.t.e ret t0 true :: s.log := fun x hx => by simp [hx]
    refine ⟨?_, fun r hr => (h.off r (off_erase_busy hr)).trans (failures_le ⟨[_], rfl⟩ _ _), h.pend, fun x hx => h.busy x (List.mem_of_mem_erase hx), fun x hx i hi => (h.clean x hx i hi).mono hm, ?_⟩
    · intro r hr
      rcases mem_saveRec.1 hr with ⟨rfl, -⟩ | ⟨hr, -⟩
      · exact backed_afterCall hcount (h.off _ hoff) (hco.init _ hoff) (hco.busy j hj) rfl (h.busy j hj)
      · exact (h.rows r hr).mono ⟨[_], rfl⟩
    · intro svc eid hss
      simp only [List.mem_cons, reduceCtorEq, false_or] at hss
      refine (h.stored svc eid hss).imp (exists_saveRec ?_) fun h => h.mono hm
      intro x hx hi
      rw [afterCall_key]
      exact (hsc.off _ hoff).2 x hx (by simpa using hi)
  | finishLost j ret hj hp t0 ht => exact h.same rfl (one _ (by simp)) (fun r hr => off_erase_busy hr) (fun _ h => h) (fun _ h => .inl (List.mem_of_mem_erase h)) h.clean
  | crash j hp => exact h.same rfl nolog (fun r hr => off_erase_busy hr) (fun _ h => h) (fun _ h => .inl (List.mem_of_mem_erase h)) h.clean
  | cleanSelect svc t0 ht =>
    refine h.same rfl nolog (fun _ h => h) (fun _ h => h) (fun _ h => .inl h) ?_
    intro x hx i hi
    rcases List.mem_cons.1 hx with rfl | hx
    · simp only [Clean.ids, cleanable, List.mem_map, List.mem_filter, Bool.and_eq_true, beq_iff_eq, decide_eq_true_eq] at hi
      obtain ⟨r, ⟨hr, ⟨h1, h2⟩, -⟩, rfl⟩ := hi
      have := (h.rows r hr).success h2
      rw [h1] at this; exact this
    · exact h.clean x hx i hi
  | cleanRecs svc b rest hb hl =>
    have hall := h.clean _ hb
    refine ⟨fun r hr => h.rows r (List.mem_of_mem_filter hr), h.off, h.pend, h.busy, ?_, ?_⟩
    · intro x hx i hi
      rcases List.mem_cons.1 hx with rfl | hx
      · exact hall i (by simp only [Clean.ids] at hi ⊢; simp [hi])
      · exact h.clean x (List.mem_of_mem_erase hx) i hi
    · intro svc' eid hs
      rcases h.stored svc' eid hs with ⟨r, hr, h1, h2⟩ | h2
      · by_cases hd : svc' = svc ∧ eid ∈ b
        · right
          rw [hd.1]
          exact hall eid (by simp [Clean.ids, hd.2])
        · left
          refine ⟨r, ?_, h1, h2⟩
          simp only [deleteRecs, List.mem_filter, hr, true_and, h1, h2]
          rcases not_and_or.1 hd with hd | hd <;> simp [hd]
      · exact .inr h2
  | cleanCount svc b rest hb =>
    refine h.same rfl nolog (fun _ h => h) (fun _ h => h) (fun _ h => .inl h) ?_
    intro x hx i hi
    rcases List.mem_cons.1 hx with rfl | hx
    · exact h.clean _ hb i hi
    · exact h.clean x (List.mem_of_mem_erase hx) i hi
  | cleanEvents svc d rest hd =>
    refine h.same rfl nolog (fun _ h => h) (fun _ h => h) (fun _ h => .inl h) ?_
    intro x hx i hi
    rcases List.mem_cons.1 hx with rfl | hx
    · exact h.clean _ hd i hi
    · exact h.clean x (List.mem_of_mem_erase hx) i hi
  | cleanDrop x => exact h.same rfl nolog (fun _ h => h) (fun _ h => h) (fun _ h => .inl h) fun y hy => h.clean y (List.mem_of_mem_erase hy)
  | expire r hr hl hp =>
    have hm : ∀ x ∈ s.log, x ∈ Log.expired r.service r.eventId :: s.log := fun x hx => by simp [hx]
    have hfl : ∀ a b, failures (Log.expired r.service r.eventId :: s.log) a b = failures s.log a b := by intro a b; rw [failures_cons]; simp [Log.isFail]
    refine ⟨?_, fun x hx => (h.off x hx).trans (failures_le ⟨[_], rfl⟩ _ _), h.pend, h.busy, fun x hx i hi => (h.clean x hx i hi).mono hm, ?_⟩
    · intro x hx
      rcases mem_saveRec.1 hx with ⟨rfl, -⟩ | ⟨hx, -⟩
      · refine ⟨by rw [hfl]; exact (h.rows r hr).retry, by simp, by simp, by simp, by simp⟩
      · exact (h.rows x hx).mono ⟨[_], rfl⟩
    · intro svc eid hss
      simp only [List.mem_cons, reduceCtorEq, false_or] at hss
      refine (h.stored svc eid hss).imp (exists_saveRec ?_) fun h => h.mono hm
      intro x hx hi
      have : x = r := List.inj_on_of_nodup_map hsc.ids hx hr hi
      rw [this]; rfl

theorem safe_reachable {c : Cfg} {pol : Pol} (hcalm : pol.calm = true) (hcount : Counting c.strategy) {s : State} (h : Reachable c pol s) : Safe c.strategy s := by
  induction h with
  | init =>
    refine ⟨by simp [State.init], ?_, by simp [State.init], by simp [State.init], by simp [State.init], by simp [State.init]⟩
    intro r hr
    rcases hr with ⟨x, hx, _⟩ | ⟨x, hx, _⟩ | ⟨x, hx, _⟩ <;> simp [State.init] at hx
  | step h1 hst ih => exact safe_step hcalm hcount (schema_reachable h1).1 (schema_reachable h1).2 ih hst

end Ddd.Bus
