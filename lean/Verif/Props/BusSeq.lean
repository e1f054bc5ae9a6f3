import Verif.Spec.BusSeq
import Verif.Props.BusLTS
import Verif.Props.BusHandle
import Verif.Props.BusTx
import Verif.Props.BusOrder
/-!
# C102: histories of operations that do not overlap are executions of the interleaving model
-/
set_option linter.unusedVariables false
set_option linter.unusedSimpArgs false
namespace Ddd.Bus

theorem Steps.trans {c : Cfg} {pol : Pol} {a b d : State} (h : Steps c pol a b) (h' : Steps c pol b d) : Steps c pol a d := by
  induction h' with
  | refl => exact h
  | step _ st ih => exact .step ih st

theorem Steps.one {c : Cfg} {pol : Pol} {a b : State} (h : Step c pol a b) : Steps c pol a b := .step (.refl _) h

theorem Steps.cons {c : Cfg} {pol : Pol} {a b d : State} (h : Step c pol a b) (h' : Steps c pol b d) : Steps c pol a d := (Steps.one h).trans h'

theorem Steps.reachable {c : Cfg} {pol : Pol} {a b : State} (h : Steps c pol a b) (h' : Reachable c pol a) : Reachable c pol b := by
  induction h with
  | refl => exact h'
  | step _ st ih => exact .step ih st

/-! ## Dispatch -/

theorem steps_recs {c : Cfg} {pol : Pol} {now : Nat} {ps : List EvRow} (n : Nat) : ∀ {todo : List Nat} {db : DB} {log : List Log}, todo.Nodup →
    (∀ r ∈ db.recs, r.service ∈ todo → ∀ p ∈ ps, r.eventId ≠ p.id) →
    Steps c pol ⟨now, db, [.listed ps todo], [], [], [], [], log⟩ ⟨now, insertAllRecs ps (todo.take n) db, [.listed ps (todo.drop n)], [], [], [], [], recsLog ps (todo.take n) ++ log⟩ := by
  induction n with
  | zero => intro todo db log _ _; simpa [insertAllRecs, recsLog] using Steps.refl _
  | succ n ih =>
    intro todo db log hn hu
    cases todo with
    | nil => simpa [insertAllRecs, recsLog] using Steps.refl _
    | cons s ss =>
      have st := Step.dispRecs (c := c) (pol := pol) ⟨now, db, [.listed ps (s :: ss)], [], [], [], [], log⟩ ps s ss (by simp) (fun r hr h1 p hp => hu r hr (by simp [h1]) p hp)
      simp only [List.erase_cons_head] at st
      refine .cons st ?_
      have := ih (todo := ss) (db := insertRecs db s ps) (log := ps.map (fun p => .stored s p.id) ++ log) (List.nodup_cons.1 hn).2 (by
        intro r hr h1 p hp
        rcases List.mem_append.1 hr with hr | hr
        · exact hu r hr (by simp [h1]) p hp
        · exact absurd (newRecs_service hr ▸ h1) (List.nodup_cons.1 hn).1)
      simpa [insertAllRecs, recsLog] using this

theorem steps_dispatch {c : Cfg} {pol : Pol} {now : Nat} {db : DB} {log : List Log} (hv : Valid db) (tid : Nat) (es : List DEv) (n : Nat) :
    Steps c pol (resting now db log) (resting now (dispatch db tid es n).1 (dispatchLog db tid es n ++ log)) := by
  unfold dispatch dispatchLog
  split
  · exact .refl _
  · rename_i he
    have st1 := Step.dispInsert (c := c) (pol := pol) (resting now db log) tid es he
    have drop : ∀ d x l, Steps c pol ⟨now, d, [x], [], [], [], [], l⟩ (resting now d l) := by
      intro d x l
      have := Step.dispDrop (c := c) (pol := pol) ⟨now, d, [x], [], [], [], [], l⟩ x
      simp only [List.erase_cons_head] at this
      exact .one this
    match n with
    | 0 => exact .refl _
    | 1 => exact .cons st1 (drop _ _ _)
    | n + 2 =>
      refine .cons st1 ?_
      have st2 := Step.dispList (c := c) (pol := pol) ⟨now, insertEvents db tid es, [.inserted (newEvents db.nextEv tid es)], [], [], [], [], log⟩ (newEvents db.nextEv tid es) (by simp)
      simp only [List.erase_cons_head] at st2
      refine .cons st2 (Steps.trans (steps_recs n hv.svcs ?_) (drop _ _ _))
      intro r hr _ p hp hh
      have h1 := hv.recEv r hr
      have h2 := (mem_newEvents hp).2.1
      omega

/-! ## Transactions -/

theorem steps_deleteTx {c : Cfg} {pol : Pol} {now : Nat} {db : DB} {log : List Log} (i : Nat) : Steps c pol (resting now db log) (resting now (deleteTx db i) log) :=
  .one (Step.txDelete (resting now db log) i)

theorem steps_commit {c : Cfg} {pol : Pol} {now : Nat} {db : DB} {log : List Log} (hv : Valid db) (tx : TxRow) (n : Nat) :
    Steps c pol (resting now db log) (resting now (commit db tx n).1 (commitLog db tx n ++ log)) := by
  unfold commit commitLog
  match n with
  | 0 => exact .refl _
  | n + 1 =>
    dsimp only
    by_cases hl : commitLook db tx
    · simp only [hl, if_true]; exact .refl _
    · simp only [hl]
      have h1 := steps_dispatch (c := c) (pol := pol) (now := now) (log := log) hv tx.id tx.events n
      show Steps c pol _ (resting now (commitRest db tx n).1 _)
      unfold commitRest
      split
      · rename_i d h; rw [h] at h1; exact h1
      · rename_i d h
        rw [h] at h1
        split
        · exact h1
        · exact h1.trans (steps_deleteTx _)

theorem steps_check {c : Cfg} {pol : Pol} {now : Nat} {db : DB} {log : List Log} (hv : Valid db) (ask : DEv → TxAns) (tx : TxRow) (n : Nat) :
    Steps c pol (resting now db log) (resting now (checkTx ask db tx n) (checkLog ask db tx n ++ log)) := by
  unfold checkTx checkLog
  cases htx : tx.events with
  | nil => exact .refl _
  | cons e es =>
    dsimp only
    cases hask : ask e with
    | unknown => exact .refl _
    | commit => exact steps_commit hv tx n
    | rollback =>
      dsimp only
      unfold rollback
      split
      · exact steps_deleteTx _
      · exact .refl _

theorem steps_checks {c : Cfg} {pol : Pol} {now : Nat} (ask : DEv → TxAns) (ns : Nat → Nat) (l : List TxRow) : ∀ {db : DB} {log : List Log}, Valid db → (∀ t ∈ l, t.id < db.nextTx) →
    Steps c pol (resting now db log) (resting now (l.foldl (fun d t => checkTx ask d t (ns t.id)) db) (checksLog ask ns l db ++ log)) := by
  induction l with
  | nil => intro db log _ _; exact .refl _
  | cons t l ih =>
    intro db log hv hl
    have h1 := steps_check (c := c) (pol := pol) (now := now) (log := log) hv ask t (ns t.id)
    have h2 := ih (db := checkTx ask db t (ns t.id)) (log := checkLog ask db t (ns t.id) ++ log) (valid_checkTx (hl t (by simp)) hv).1
      (fun x hx => by rw [(valid_checkTx (hl t (by simp)) hv).2]; exact hl x (by simp [hx]))
    simpa [checksLog] using h1.trans h2

/-! ## Runs of a worker -/

theorem handleAll_limit {c : Cfg} (k : Nat) (svc start now : Nat) (ans : Nat → DEv → Ret) (ts : List Tuple) : ∀ (i : Nat) (db : DB),
    handleAll { c with limit := k } svc start now ans i ts db = handleAll c svc start now ans i ts db ∧ handleAllLog { c with limit := k } svc start now ans i ts db = handleAllLog c svc start now ans i ts db := by
  induction ts with
  | nil => intro i db; exact ⟨rfl, rfl⟩
  | cons t ts ih =>
    intro i db
    have h1 : handle { c with limit := k } db svc start now t (ans i) = handle c db svc start now t (ans i) := rfl
    have h2 : handleLog { c with limit := k } db svc start now t (ans i) = handleLog c db svc start now t (ans i) := rfl
    simp only [handleAll, handleAllLog, h1, h2]
    exact ⟨by rw [(ih _ _).1], by rw [(ih _ _).2]⟩

theorem steps_drop {c : Cfg} {pol : Pol} {now : Nat} {db : DB} {log : List Log} (js : List Job) : Steps c pol ⟨now, db, [], [], js, [], [], log⟩ (resting now db log) := by
  induction js with
  | nil => exact .refl _
  | cons j js ih =>
    have := Step.jobDrop (c := c) (pol := pol) ⟨now, db, [], [], j :: js, [], [], log⟩ j
    simp only [List.erase_cons_head] at this
    exact .cons this ih

theorem steps_handleAll {c : Cfg} {pol : Pol} {svc start now : Nat} {ans : Nat → DEv → Ret} {rest : List Job} (ts : List Tuple) : ∀ {i : Nat} {db : DB} {log : List Log},
    (∀ t ∈ ts, t.r ∈ db.recs ∧ t.r.status = .init ∧ t.r.next ≤ now) → (ts.map fun t => t.r.id).Nodup →
    Steps c pol ⟨now, db, [], [], (ts.map fun t => ⟨svc, start, t⟩) ++ rest, [], [], log⟩ (resting now (handleAll c svc start now ans i ts db).1 (handleAllLog c svc start now ans i ts db ++ log)) := by
  induction ts with
  | nil => intro i db log _ _; exact steps_drop rest
  | cons t ts ih =>
    intro i db log hts hn
    obtain ⟨hr, hs, hdue⟩ := hts t (by simp)
    have hn' := List.nodup_cons.1 (by simpa using hn : (t.r.id :: ts.map fun t => t.r.id).Nodup)
    have keep : ∀ r' : Rec, r'.id = t.r.id → ∀ u ∈ ts, u.r ∈ (saveRec db r').recs ∧ u.r.status = .init ∧ u.r.next ≤ now := by
      intro r' hr' u hu
      obtain ⟨h1, h2⟩ := hts u (by simp [hu])
      refine ⟨mem_saveRec.2 (.inr ⟨h1, ?_⟩), h2⟩
      intro h3; exact hn'.1 (List.mem_map.2 ⟨u, hu, h3.trans hr'⟩)
    have hany : (db.recs.any fun x => x.id == t.r.id) = true := by simp; exact ⟨t.r, hr, rfl⟩
    have hlock : ∀ (p : List Job), ¬ State.locked ⟨now, db, [], [], p, [], [], log⟩ t.r.id := by intro p; simp [State.locked]
    by_cases hm : mayCall db svc start t.e = true
    · have e1 : handle c db svc start now t (ans i) = (saveRec db (afterCall c.strategy now t.r (ans i t.e.ev)), some t.e.ev) := by
        unfold handle; simp [hany, hs, hm]
      have st1 := Step.call (c := c) (pol := pol) ⟨now, db, [], [], ((t :: ts).map fun t => ⟨svc, start, t⟩) ++ rest, [], [], log⟩ ⟨svc, start, t⟩ (by simp) (hlock _) ⟨t.r, hr, rfl⟩ hs hm (fun _ => hr)
      have st2 := Step.finish (c := c) (pol := pol) ⟨now, db, [], [], (ts.map fun t => ⟨svc, start, t⟩) ++ rest, [⟨svc, start, t⟩], [], .called svc t.r.eventId t.e now :: log⟩ ⟨svc, start, t⟩ (ans i t.e.ev) (by simp) now ⟨hdue, Nat.le_add_right _ _⟩
      simp only [List.map_cons, List.cons_append, List.erase_cons_head] at st1 st2
      refine .cons st1 (.cons st2 ?_)
      have h3 := ih (i := i + 1) (db := saveRec db (afterCall c.strategy now t.r (ans i t.e.ev))) (log := .returned svc t.r.eventId t.e (ans i t.e.ev) now true :: .called svc t.r.eventId t.e now :: log)
        (keep _ (afterCall_id ..)) hn'.2
      simp only [handleAll, handleAllLog, handleLog, e1]
      simpa using h3
    · have hm' : mayCall db svc start t.e = false := by simpa using hm
      have e1 : handle c db svc start now t (ans i) = (saveRec db t.r, none) := by unfold handle; simp [hany, hs, hm']
      have st1 := Step.blocked (c := c) (pol := pol) ⟨now, db, [], [], ((t :: ts).map fun t => ⟨svc, start, t⟩) ++ rest, [], [], log⟩ ⟨svc, start, t⟩ (by simp) (hlock _) ⟨t.r, hr, rfl⟩ hs (fifo_of_blocked hm') (fun _ => hr)
      simp only [List.map_cons, List.cons_append, List.erase_cons_head] at st1
      refine .cons st1 ?_
      have h3 := ih (i := i + 1) (db := saveRec db t.r) (log := log) (keep _ rfl) hn'.2
      simp only [handleAll, handleAllLog, handleLog, e1]
      simpa using h3

theorem ext_tuples {db : DB} (hn : (db.events.map EvRow.id).Nodup) : ∀ {l l' : List Tuple}, l.map Tuple.r = l'.map Tuple.r → (∀ t ∈ l, t.e ∈ db.events ∧ t.e.id = t.r.eventId) →
    (∀ t ∈ l', t.e ∈ db.events ∧ t.e.id = t.r.eventId) → l = l' := by
  intro l
  induction l with
  | nil => intro l' h _ _; cases l' with
    | nil => rfl
    | cons _ _ => simp at h
  | cons t l ih =>
    intro l' h h1 h2
    cases l' with
    | nil => simp at h
    | cons u l' =>
      simp only [List.map_cons, List.cons.injEq] at h
      have e1 : t.e = u.e := List.inj_on_of_nodup_map hn (h1 t (by simp)).1 (h2 u (by simp)).1 (by rw [(h1 t (by simp)).2, (h2 u (by simp)).2, h.1])
      have : t = u := by cases t; cases u; simp_all
      rw [this, ih h.2 (fun x hx => h1 x (by simp [hx])) (fun x hx => h2 x (by simp [hx]))]

/-- a scan with a smaller limit finds the first ones -/
theorem scan_take {db : DB} (hv : Valid db) (hi : Integrity db) (svc start now : Nat) {k n : Nat} (hk : k ≤ n) : scan db svc k start now = (scan db svc n start now).take k := by
  have own := fun m => (C39_right_work hv hi svc m start now).own
  refine ext_tuples hv.evIds ?_ (own k) (fun t ht => own n t (List.mem_of_mem_take ht))
  rw [List.map_take, scan_recs hv hi, scan_recs hv hi, scanRecs_eq, scanRecs_eq, List.take_take, Nat.min_eq_left hk]

theorem steps_run {c c' : Cfg} {pol : Pol} {svc now : Nat} {ans : Nat → DEv → Ret} {db : DB} {log : List Log} (hv : Valid db) (hi : Integrity db) (hc : Stops c c') :
    Steps c pol (resting now db log) (resting now (handleEvents c' svc now ans db).1 (runLog c' svc now ans db ++ log)) := by
  obtain ⟨k, hk, rfl⟩ := hc
  unfold handleEvents runLog
  dsimp only
  cases hst : scanStart db c.window now with
  | none => exact .refl _
  | some start =>
    dsimp only
    rw [(handleAll_limit k svc start now ans _ 0 db).1, (handleAll_limit k svc start now ans _ 0 db).2]
    have st1 := Step.scanBegin (c := c) (pol := pol) (resting now db log) svc start now (Nat.le_add_right _ _) hst
    refine .cons st1 ?_
    simp only [resting]
    cases h0 : (pendingFrom db svc start).head? with
    | none =>
      have : scan db svc k start now = [] := by unfold scan scanRecs; simp [h0, pairUp]
      rw [this]
      have := Step.scanDrop (c := c) (pol := pol) ⟨now, db, [], [.begun svc start], [], [], [], log⟩ (.begun svc start)
      simp only [List.erase_cons_head] at this
      exact .one this
    | some r0 =>
      have st2 := Step.scanOffset (c := c) (pol := pol) ⟨now, db, [], [.begun svc start], [], [], [], log⟩ svc start r0 (by simp) h0
      simp only [List.erase_cons_head] at st2
      have st3 := Step.scanRows (c := c) (pol := pol) ⟨now, db, [], [.offset svc start (scanOffset start r0)], [], [], [], log⟩ svc start (scanOffset start r0) (by simp) now (Nat.le_add_right _ _)
      simp only [List.erase_cons_head] at st3
      have hrs : ((pendingFrom db svc (scanOffset start r0)).filter fun r => decide (r.next ≤ now)).take c.limit = scanRecs db svc start c.limit now := by
        unfold scanRecs; simp [h0]
      rw [hrs] at st3
      have st4 := Step.scanEvents (c := c) (pol := pol) ⟨now, db, [], [.rows svc start (scanRecs db svc start c.limit now)], [], [], [], log⟩ svc start (scanRecs db svc start c.limit now) (by simp)
        (fun _ r hr => hi r (mem_scanRecs hr).1)
      simp only [List.erase_cons_head, List.append_nil] at st4
      refine .cons st2 (.cons st3 (.cons st4 ?_))
      show Steps c pol ⟨now, db, [], [], (scan db svc c.limit start now).map fun t => ⟨svc, start, t⟩, [], [], log⟩ _
      have hsplit : (scan db svc c.limit start now).map (fun t => (⟨svc, start, t⟩ : Job)) =
          (scan db svc k start now).map (fun t => (⟨svc, start, t⟩ : Job)) ++ ((scan db svc c.limit start now).drop k).map fun t => (⟨svc, start, t⟩ : Job) := by
        rw [scan_take hv hi svc start now hk, ← List.map_append, List.take_append_drop]
      rw [hsplit]
      refine steps_handleAll _ ?_ ?_
      · intro t ht
        have := mem_scanRecs (mem_pairUp ht).1
        exact ⟨this.1, this.2.2.1, this.2.2.2⟩
      · have h1 := scan_recs hv hi svc k start now
        have h2 : (scan db svc k start now).map (fun t => t.r.id) = ((scan db svc k start now).map Tuple.r).map Rec.id := by simp
        rw [h2, h1]
        have h3 := scanRecs_strict hv svc start k now
        refine List.pairwise_map.2 ((List.pairwise_iff_forall_sublist.2 ?_))
        intro a b hab heq
        have hlt := List.pairwise_iff_forall_sublist.1 h3 hab
        have ha := (mem_scanRecs (hab.subset (by simp : a ∈ [a, b]))).1
        have hb := (mem_scanRecs (hab.subset (by simp : b ∈ [a, b]))).1
        have : a = b := List.inj_on_of_nodup_map hv.recIds ha hb heq
        subst this; omega

/-! ## Cleaning -/

theorem steps_batches {c : Cfg} {pol : Pol} {svc now : Nat} (bs : List (List Nat)) : ∀ {db : DB} {log : List Log},
    Steps c pol ⟨now, db, [], [], [], [], [.todo svc bs.flatten], log⟩ (resting now (bs.foldl (cleanBatch svc) db) log) := by
  induction bs with
  | nil =>
    intro db log
    have := Step.cleanDrop (c := c) (pol := pol) ⟨now, db, [], [], [], [], [.todo svc []], log⟩ (.todo svc [])
    simp only [List.erase_cons_head] at this
    exact .one this
  | cons b bs ih =>
    intro db log
    have st1 := Step.cleanRecs (c := c) (pol := pol) ⟨now, db, [], [], [], [], [.todo svc (b ++ bs.flatten)], log⟩ svc b bs.flatten (by simp) (by simp [State.locked])
    have st2 := Step.cleanCount (c := c) (pol := pol) ⟨now, deleteRecs db svc b, [], [], [], [], [.counting svc b bs.flatten], log⟩ svc b bs.flatten (by simp)
    have st3 := Step.cleanEvents (c := c) (pol := pol) ⟨now, deleteRecs db svc b, [], [], [], [], [.deleting svc (unreferenced (deleteRecs db svc b) b) bs.flatten], log⟩ svc
      (unreferenced (deleteRecs db svc b) b) bs.flatten (by simp)
    simp only [List.erase_cons_head] at st1 st2 st3
    exact .cons st1 (.cons st2 (.cons st3 ih))

theorem steps_clean {c : Cfg} {pol : Pol} {svc now : Nat} {db : DB} {log : List Log} : Steps c pol (resting now db log) (resting now (clean c svc now db) log) := by
  have st1 := Step.cleanSelect (c := c) (pol := pol) (resting now db log) svc now (Nat.le_add_right _ _)
  refine .cons st1 ?_
  have := steps_batches (c := c) (pol := pol) (svc := svc) (now := now) (batches (cleanable c db svc now)) (db := db) (log := log)
  rw [batches_flatten] at this
  exact this

/-! ## Integrity -/

theorem integrity_insertAllRecs {ps : List EvRow} (ss : List Nat) : ∀ {db : DB}, Integrity db → (∀ p ∈ ps, p ∈ db.events) → Integrity (insertAllRecs ps ss db) := by
  induction ss with
  | nil => intro db h _; exact h
  | cons s ss ih =>
    intro db h hp
    refine ih ?_ hp
    intro r hr
    rcases List.mem_append.1 hr with hr | hr
    · exact h r hr
    · obtain ⟨p, hp1, hp2⟩ := newRecs_fresh hr
      exact ⟨p, hp p hp1, hp2.2.1.symm⟩

theorem integrity_dispatch {db : DB} (h : Integrity db) (tid : Nat) (es : List DEv) (n : Nat) : Integrity (dispatch db tid es n).1 := by
  have h1 : Integrity (insertEvents db tid es) := by
    intro r hr
    obtain ⟨e, he, h2⟩ := h r hr
    exact ⟨e, List.mem_append.2 (.inl he), h2⟩
  unfold dispatch
  split
  · exact h
  · split
    · exact h
    · exact h1
    · exact integrity_insertAllRecs _ h1 fun p hp => List.mem_append.2 (.inr hp)

theorem integrity_commit {db : DB} (h : Integrity db) (tx : TxRow) (n : Nat) : Integrity (commit db tx n).1 := by
  unfold commit
  split
  · exact h
  · rename_i n
    split
    · exact h
    · have h1 := integrity_dispatch h tx.id tx.events n
      unfold commitRest
      split
      · rename_i h2; rw [h2] at h1; exact h1
      · rename_i h2
        rw [h2] at h1
        split <;> exact h1

theorem integrity_checkTx {db : DB} (h : Integrity db) (ask : DEv → TxAns) (tx : TxRow) (n : Nat) : Integrity (checkTx ask db tx n) := by
  unfold checkTx
  split
  · exact h
  · split
    · exact h
    · exact integrity_commit h tx n
    · unfold rollback; split <;> exact h

theorem integrity_cleanBatch {db : DB} (h : Integrity db) (svc : Nat) (ids : List Nat) : Integrity (cleanBatch svc db ids) := by
  intro r hr
  have hr' : r ∈ (deleteRecs db svc ids).recs := hr
  obtain ⟨e, he, h1⟩ := h r (List.mem_of_mem_filter hr')
  refine ⟨e, List.mem_filter.2 ⟨he, ?_⟩, h1⟩
  simp only [decide_eq_true_eq]
  intro hm
  have := (List.mem_filter.1 hm).2
  simp only [Bool.not_eq_true', List.any_eq_false, beq_iff_eq] at this
  exact this r hr' h1.symm

theorem integrity_apply {db : DB} (hv : Valid db) (h : Integrity db) (op : Op) : Integrity (op.apply db) := by
  cases op with
  | dispatch es n => exact integrity_dispatch h _ _ _
  | begin svc now timeout es ok =>
    show Integrity (dispatchBegin db svc now timeout es ok).1
    unfold dispatchBegin; split
    · exact h
    · split <;> exact h
  | commit tx n => dsimp only [Op.apply]; split; exacts [integrity_commit h tx n, h]
  | rollback tx ok => dsimp only [Op.apply]; split; · unfold rollback; split <;> exact h
                      exact h
  | check ask svc now ns =>
    show Integrity (handleTxs ask svc now ns db)
    unfold handleTxs
    have : ∀ (l : List TxRow) (d : DB), Integrity d → Integrity (l.foldl (fun d t => checkTx ask d t (ns t.id)) d) := by
      intro l
      induction l with
      | nil => intro d h; exact h
      | cons t l ih => intro d h; exact ih _ (integrity_checkTx h _ _ _)
    exact this _ _ h
  | register svc =>
    show Integrity (register db svc)
    unfold register; split <;> exact h
  | run c svc now ans =>
    have hs := same_handleEvents (c := c) (svc := svc) (now := now) (ans := ans) hv.recIds
    intro r hr
    obtain ⟨x, hx, hk⟩ := mem_of_keys hs.keys hr
    obtain ⟨e, he, h1⟩ := h x hx
    exact ⟨e, by show e ∈ (handleEvents c svc now ans db).1.events; rw [hs.events]; exact he, h1.trans (Rec.key_eq.1 hk).2.2⟩
  | clean c svc now =>
    show Integrity (clean c svc now db)
    unfold clean
    have : ∀ (l : List (List Nat)) (d : DB), Integrity d → Integrity (l.foldl (cleanBatch svc) d) := by
      intro l
      induction l with
      | nil => intro d h; exact h
      | cons t l ih => intro d h; exact ih _ (integrity_cleanBatch h _ _)
    exact this _ _ h

/-! ## Histories -/

theorem steps_tick {c : Cfg} {pol : Pol} {t now : Nat} {db : DB} {log : List Log} (h : t ≤ now) : Steps c pol (resting t db log) (resting now db log) := by
  have := Step.tick (c := c) (pol := pol) (resting t db log) (now - t)
  have e : (resting t db log).now + (now - t) = now := by simp only [resting]; omega
  rw [e] at this
  exact .one this

theorem steps_ops {c : Cfg} {pol : Pol} (ops : List Op) : ∀ {t : Nat} {db : DB} {log : List Log}, InTime c t ops → Valid db → Integrity db →
    ∃ t', Steps c pol (resting t db log) (resting t' (runOps db ops) (opsLog db ops ++ log)) := by
  induction ops with
  | nil => intro t db log _ _ _; exact ⟨t, .refl _⟩
  | cons op ops ih =>
    intro t db log ht hv hi
    have hv' := valid_apply hv op
    have hi' := integrity_apply hv hi op
    have main : ∀ now, InTime c now ops → Steps c pol (resting t db log) (resting now (op.apply db) (op.log db ++ log)) →
        ∃ t', Steps c pol (resting t db log) (resting t' (runOps db (op :: ops)) (opsLog db (op :: ops) ++ log)) := by
      intro now h1 h2
      obtain ⟨t', h3⟩ := ih (log := op.log db ++ log) h1 hv' hi'
      refine ⟨t', h2.trans ?_⟩
      simpa [opsLog, runOps] using h3
    cases op with
    | dispatch es n => exact main t ht (steps_dispatch hv 0 es n)
    | begin svc now timeout es ok =>
      refine main now ht.2 ((steps_tick ht.1).trans ?_)
      simp only [Op.apply, Op.log, dispatchBegin]
      split
      · exact .refl _
      · rename_i he
        split
        · exact .refl _
        · exact .one (Step.txBegin (resting now db log) svc timeout es he now (Nat.le_add_right _ _))
    | commit tx n =>
      refine main t ht ?_
      simp only [Op.apply, Op.log]
      split
      · exact steps_commit hv tx n
      · exact .refl _
    | rollback tx ok =>
      refine main t ht ?_
      simp only [Op.apply, Op.log, rollback]
      split
      · split
        · exact steps_deleteTx _
        · exact .refl _
      · exact .refl _
    | check ask svc now ns =>
      refine main now ht.2 ((steps_tick ht.1).trans ?_)
      exact steps_checks ask ns _ hv fun x hx => hv.txFresh x (List.mem_of_mem_filter hx)
    | register svc => exact main t ht (.one (Step.register (resting t db log) svc))
    | run c' svc now ans =>
      obtain ⟨hc, h1, h2⟩ := ht
      exact main now h2 ((steps_tick h1).trans (steps_run hv hi hc))
    | clean c' svc now =>
      obtain ⟨rfl, h1, h2⟩ := ht
      exact main now h2 ((steps_tick h1).trans steps_clean)

/-- **C102** A history of operations that do not overlap, from an empty database, is an execution of the model of all interleavings: with the same database and the same observable effects, and with
nothing under way at its end. So every property proved of all interleavings holds of it, also those that need that no worker acts on a stale copy and no outcome is lost. -/
theorem C102_execution {c : Cfg} {ops : List Op} (h : InTime c 0 ops) :
    ∃ now, Reachable c oneAtATime (resting now (runOps (emptyDB []) ops) (opsLog (emptyDB []) ops)) := by
  obtain ⟨t, ht⟩ := steps_ops (pol := oneAtATime) ops (log := []) h (valid_emptyDB (ss := []) List.nodup_nil) (by intro r hr; simp [emptyDB] at hr)
  rw [List.append_nil] at ht
  exact ⟨t, ht.reachable .init⟩

/-! ## What follows -/

theorem success_once {c : Cfg} {pol : Pol} (hfresh : pol.fresh = true) (hloss : pol.lossless = true) (hcount : Counting c.strategy) {s : State} (h : Reachable c pol s) (svc eid : Nat) :
    successes s.log svc eid ≤ 1 := by
  induction h with
  | init => simp [State.init, successes]
  | @step s s' h1 hst ih =>
    have hh := held_reachable hfresh h1
    have he := exact_reachable hfresh hloss hcount h1
    have hi := inv_reachable h1
    cases hst with
    | dispRecs ps sv todo hps hu => rw [(counts_stored ps sv s.log svc eid).2.1]; exact ih
    | call j hj hl hx hs hm hf => rw [successes_cons]; simpa [Log.isDone] using ih
    | finish j ret hj t0 ht =>
      rw [successes_cons]
      by_cases hd : (Log.returned j.svc j.t.r.eventId j.t.e ret t0 true).isDone svc eid = true
      · rw [if_pos hd]
        simp only [Log.isDone, decide_eq_true_eq] at hd
        have h2 := ((he.rows _ (hh j hj)).init (hi.copies.init _ (.inr (.inr ⟨j, hj, rfl⟩)))).1
        rw [← hd.1, ← hd.2.1, ← hi.copies.busy j hj, h2]
      · rw [if_neg hd]; exact ih
    | finishLost j ret hj hp t0 ht => rw [hloss] at hp; cases hp
    | expire r hr hl hp => rw [successes_cons]; simpa [Log.isDone] using ih
    | _ => exact ih

theorem calls_bounded {c : Cfg} {pol : Pol} (hfresh : pol.fresh = true) (hloss : pol.lossless = true) (hcount : Counting c.strategy) {n : Nat} (hn : ∀ now, c.strategy n now = none) {s : State}
    (h : Reachable c pol s) (svc eid : Nat) : calls s.log svc eid ≤ n + 1 := by
  induction h with
  | init => simp [State.init, calls]
  | @step s s' h1 hst ih =>
    have hh := held_reachable hfresh h1
    have he := exact_reachable hfresh hloss hcount h1
    have hi := inv_reachable h1
    cases hst with
    | dispRecs ps sv todo hps hu => rw [(counts_stored ps sv s.log svc eid).1]; exact ih
    | call j hj hl hx hs hm hf =>
      rw [calls_cons]
      by_cases hd : (Log.called j.svc j.t.r.eventId j.t.e s.now).isCall svc eid = true
      · rw [if_pos hd]
        simp only [Log.isCall, decide_eq_true_eq] at hd
        have hr := hf hfresh
        have hsv : j.t.r.service = svc := by rw [hi.copies.pend j hj]; exact hd.1
        have h2 := (he.rows _ hr).init hs
        have h3 := (he.rows _ hr).allowed
        have h4 := he.total svc eid
        rw [hsv, hd.2] at h2
        have hrun : running s svc eid = 0 := by
          refine List.countP_eq_zero.2 ?_
          intro k hk hkk
          simp only [decide_eq_true_eq] at hkk
          have hk1 := hh k hk
          have : k.t.r = j.t.r := List.inj_on_of_nodup_map hi.schema.keys hk1 hr (by simp [hi.copies.busy k hk, hkk.1, hkk.2, hsv, hd.2])
          exact hl ⟨k, hk, by rw [this]⟩
        have h5 : j.t.r.retry ≤ n := by
          by_contra hc
          obtain ⟨t, ht⟩ := h3 n (by omega)
          exact ht (hn t)
        omega
      · rw [if_neg hd]; exact ih
    | finish j ret hj t0 ht => rw [calls_cons]; simpa [Log.isCall] using ih
    | finishLost j ret hj hp t0 ht => rw [hloss] at hp; cases hp
    | expire r hr hl hp => rw [calls_cons]; simpa [Log.isCall] using ih
    | _ => exact ih

/-- **C102** In such a history a handler succeeds at most once for an event, and is not called for it again after it did. The log is latest first. -/
theorem C102_once {c : Cfg} (hcount : Counting c.strategy) {ops : List Op} (h : InTime c 0 ops) (svc eid : Nat) :
    successes (opsLog (emptyDB []) ops) svc eid ≤ 1 ∧
      (opsLog (emptyDB []) ops).Pairwise fun later earlier => (∃ e t, earlier = .returned svc eid e .ok t true) → ∀ e t, later ≠ .called svc eid e t := by
  obtain ⟨t, hr⟩ := C102_execution h
  exact ⟨success_once (by rfl) (by rfl) hcount hr svc eid, C46_not_again_partial (by rfl) hr svc eid⟩

/-- **C102** The handler of a service is called with the event of the record, and every call ended: with success or not. -/
theorem C102_calls {c : Cfg} (hcount : Counting c.strategy) {ops : List Op} (h : InTime c 0 ops) (svc eid : Nat) :
    (∀ e t, .called svc eid e t ∈ opsLog (emptyDB []) ops → e.id = eid) ∧
      calls (opsLog (emptyDB []) ops) svc eid = failures (opsLog (emptyDB []) ops) svc eid + successes (opsLog (emptyDB []) ops) svc eid := by
  obtain ⟨t, hr⟩ := C102_execution h
  refine ⟨fun e t he => C40_own_event_partial (by rfl) hcount hr he, ?_⟩
  have := (exact_reachable (by rfl) (by rfl) hcount hr).total svc eid
  simpa [running, resting] using this

/-- **C102** The number of calls is bounded: by `Limit + 2` with `LimitRetry` and `IntervalRetry`, by `len(Intervals) + 1` with `CustomRetry`; also for records cleaned since. -/
theorem C102_bounded {c : Cfg} {ops : List Op} (h : InTime c 0 ops) (svc eid : Nat) :
    (∀ L : Int, -1 ≤ L → (c.strategy = limitRetry L ∨ ∃ d, c.strategy = intervalRetry d L) → (calls (opsLog (emptyDB []) ops) svc eid : Int) ≤ L + 2) ∧
      ∀ ds, c.strategy = customRetry ds → calls (opsLog (emptyDB []) ops) svc eid ≤ ds.length + 1 := by
  obtain ⟨t, hr⟩ := C102_execution h
  constructor
  · intro L hL hst
    have hcount : Counting c.strategy := by
      rcases hst with hst | ⟨d, hst⟩ <;> rw [hst]
      · exact counting_limitRetry L
      · exact counting_intervalRetry d L
    have := calls_bounded (by rfl) (by rfl) hcount (n := (L + 1).toNat) (by
      intro now
      rcases hst with hst | ⟨d, hst⟩ <;> rw [hst]
      · unfold limitRetry; rw [if_pos (by omega)]
      · unfold intervalRetry; rw [if_pos (by omega)]) hr svc eid
    simp only [resting] at this
    omega
  · intro ds hst
    have hcount : Counting c.strategy := by rw [hst]; exact counting_customRetry ds
    exact calls_bounded (by rfl) (by rfl) hcount (n := ds.length) (by intro now; rw [hst]; unfold customRetry; simp) hr svc eid

/-- **C102** Nothing is lost: a delivery that was stored is pending, or was handled successfully, or was given up after `Limit + 2` failures. -/
theorem C102_no_loss {c : Cfg} {L : Int} (hL : -1 ≤ L) (hst : c.strategy = limitRetry L ∨ ∃ d, c.strategy = intervalRetry d L) {ops : List Op} (h : InTime c 0 ops) {svc eid : Nat}
    (hs : .stored svc eid ∈ opsLog (emptyDB []) ops) :
    Pending (runOps (emptyDB []) ops) svc eid ∨ HandledOk (opsLog (emptyDB []) ops) svc eid ∨ (failures (opsLog (emptyDB []) ops) svc eid : Int) = L + 2 := by
  obtain ⟨t, hr⟩ := C102_execution h
  have hcount : Counting c.strategy := by
    rcases hst with hst | ⟨d, hst⟩ <;> rw [hst]
    · exact counting_limitRetry L
    · exact counting_intervalRetry d L
  rcases C40_no_loss_limit_partial (by rfl) hL hst hr hs with h1 | h1 | h1 | h1
  · exact .inl h1
  · exact .inr (.inl h1)
  · have h2 := (C102_calls hcount h svc eid).2
    have h3 := (C102_bounded h svc eid).1 L hL hst
    simp only [resting] at h1
    refine .inr (.inr ?_)
    omega
  · exact absurd rfl (no_expired (by rfl) hr _ h1 _ _)

/-- **C102** A handler is called again no earlier than the interval after it failed. -/
theorem C102_backoff {c : Cfg} {d : Nat} {L : Int} (hst : c.strategy = intervalRetry d L) {ops : List Op} (h : InTime c 0 ops) {l1 l2 l3 : List Log} {svc eid t1 t2 : Nat} {e e' : EvRow} {ret : Ret}
    (hlog : opsLog (emptyDB []) ops = l1 ++ .called svc eid e t2 :: (l2 ++ .returned svc eid e' ret t1 true :: l3)) (hr : ret ≠ .ok) : t1 + d ≤ t2 := by
  obtain ⟨t, h1⟩ := C102_execution h
  exact C42_interval_partial (by rfl) hst h1 hlog hr

namespace SeqDemo
/-- one service; event 1 fails once, then succeeds; event 2 succeeds at once and its record is cleaned while event 1 is still pending; the first run breaks off after one record. -/
def conf : Cfg := ⟨100, 10, 5, intervalRetry 3 1⟩
def e (i : Nat) : DEv := ⟨10 + i, 5, .normal, 1, i⟩
def hist : List Op :=
  [.register 7, .dispatch [e 1, e 2] 100, .run { conf with limit := 1 } 7 2 fun _ _ => .err, .run conf 7 3 fun _ _ => .ok, .clean conf 7 7, .run conf 7 8 fun _ _ => .ok, .clean conf 7 9]
end SeqDemo
open SeqDemo

/-- the hypotheses can be met: see `SeqDemo.hist`. -/
theorem seq_demo : InTime conf 0 hist ∧ opsLog (emptyDB []) hist =
    [.returned 7 1 ⟨1, e 1, 0⟩ .ok 8 true, .called 7 1 ⟨1, e 1, 0⟩ 8, .returned 7 2 ⟨2, e 2, 0⟩ .ok 3 true, .called 7 2 ⟨2, e 2, 0⟩ 3,
      .returned 7 1 ⟨1, e 1, 0⟩ .err 2 true, .called 7 1 ⟨1, e 1, 0⟩ 2, .stored 7 1, .stored 7 2] := by
  refine ⟨by simp only [hist, InTime, Stops]; exact ⟨⟨1, by decide, rfl⟩, by decide, ⟨10, by decide, rfl⟩, by decide, trivial, by decide, ⟨10, by decide, rfl⟩, by decide, trivial, by decide, trivial⟩, ?_⟩
  decide +kernel

end Ddd.Bus
