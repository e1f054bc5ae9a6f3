import Verif.Spec.BusFifoTx
import Verif.Props.BusFifo
/-!
# C124: FIFO order of the events of a sender that come in by commits and check-backs
-/
set_option linter.unusedVariables false
set_option linter.unusedSimpArgs false
namespace Ddd.Bus

/-! ## operations that put events into the table -/

/-- `db'` is `db` with rows appended; `l` tells the delivery records -/
structure Grew (db db' : DB) (l : List Log) : Prop where
  events : ∃ new : List EvRow, db'.events = db.events ++ new ∧ (new.Pairwise fun a b => a.id < b.id) ∧ ∀ e ∈ new, db.nextEv ≤ e.id ∧ e.id < db'.nextEv
  nextEv : db.nextEv ≤ db'.nextEv
  log : ∀ x ∈ l, ∃ a b, x = .stored a b
  recs : ∀ r ∈ db'.recs, r ∈ db.recs ∨ .stored r.service r.eventId ∈ l

theorem Grew.refl (db : DB) : Grew db db [] := ⟨⟨[], by simp⟩, Nat.le_refl _, by simp, fun _ h => .inl h⟩

theorem Grew.trans {a b d : DB} {l m : List Log} (h1 : Grew a b l) (h2 : Grew b d m) : Grew a d (m ++ l) := by
  obtain ⟨⟨n1, e1, s1, f1⟩, m1, l1, r1⟩ := h1
  obtain ⟨⟨n2, e2, s2, f2⟩, m2, l2, r2⟩ := h2
  refine ⟨⟨n1 ++ n2, by rw [e2, e1, List.append_assoc], List.pairwise_append.2 ⟨s1, s2, ?_⟩, ?_⟩, Nat.le_trans m1 m2, ?_, ?_⟩
  · intro x hx y hy
    have := f1 x hx; have := f2 y hy; omega
  · intro e he
    rcases List.mem_append.1 he with he | he
    · have := f1 e he; omega
    · have := f2 e he; omega
  · intro x hx
    rcases List.mem_append.1 hx with hx | hx
    · exact l2 x hx
    · exact l1 x hx
  · intro r hr
    rcases r2 r hr with hr | hr
    · rcases r1 r hr with hr | hr
      · exact .inl hr
      · exact .inr (List.mem_append_right _ hr)
    · exact .inr (List.mem_append_left _ hr)

theorem mem_newRecs {svc : Nat} {ps : List EvRow} {r : Rec} : ∀ {f : Nat}, r ∈ newRecs f svc ps → r.service = svc ∧ ∃ p ∈ ps, r.eventId = p.id := by
  induction ps with
  | nil => intro f h; simp [newRecs] at h
  | cons p ps ih =>
    intro f h
    simp only [newRecs, List.mem_cons] at h
    rcases h with rfl | h
    · exact ⟨rfl, p, by simp, rfl⟩
    · obtain ⟨h1, q, hq, h2⟩ := ih h
      exact ⟨h1, q, by simp [hq], h2⟩

theorem mem_insertAllRecs {ps : List EvRow} {r : Rec} : ∀ {ss : List Nat} {db : DB}, r ∈ (insertAllRecs ps ss db).recs → r ∈ db.recs ∨ .stored r.service r.eventId ∈ recsLog ps ss := by
  intro ss
  induction ss with
  | nil => intro db h; exact .inl h
  | cons s ss ih =>
    intro db h
    rcases ih h with h | h
    · simp only [insertRecs, List.mem_append] at h
      rcases h with h | h
      · exact .inl h
      · obtain ⟨h1, p, hp, h2⟩ := mem_newRecs h
        exact .inr (mem_recsLog.2 ⟨s, by simp, p, hp, by rw [h1, h2]⟩)
    · exact .inr (List.mem_append_left _ h)

theorem grew_dispatch (db : DB) (tid : Nat) (es : List DEv) (n : Nat) : Grew db (dispatch db tid es n).1 (dispatchLog db tid es n) := by
  have hev : ∀ e ∈ newEvents db.nextEv tid es, db.nextEv ≤ e.id ∧ e.id < db.nextEv + es.length := fun e he => ⟨(mem_newEvents he).2.1, (mem_newEvents he).2.2⟩
  unfold dispatch dispatchLog
  split
  · exact .refl _
  · split
    · exact .refl _
    · exact ⟨⟨_, rfl, newEvents_sorted _ _ _, hev⟩, Nat.le_add_right _ _, by simp, fun _ h => .inl h⟩
    · rename_i n
      obtain ⟨f1, f2, f3, f4, f5⟩ := insertAllRecs_frame (newEvents db.nextEv tid es) (db.services.take n) (insertEvents db tid es)
      refine ⟨⟨_, f1, newEvents_sorted _ _ _, ?_⟩, ?_, ?_, ?_⟩
      · intro e he
        show _ ∧ e.id < (insertAllRecs _ _ _).nextEv
        rw [f4]; exact hev e he
      · show _ ≤ (insertAllRecs _ _ _).nextEv
        rw [f4]; exact Nat.le_add_right _ _
      · intro x hx
        obtain ⟨s, -, p, -, rfl⟩ := mem_recsLog.1 hx
        exact ⟨_, _, rfl⟩
      · intro r hr
        exact mem_insertAllRecs (db := insertEvents db tid es) hr

theorem grew_deleteTx (db : DB) (i : Nat) : Grew db (deleteTx db i) [] := ⟨⟨[], by simp [deleteTx]⟩, Nat.le_refl _, by simp, fun _ h => .inl h⟩

theorem grew_commit (db : DB) (tx : TxRow) (n : Nat) : Grew db (commit db tx n).1 (commitLog db tx n) := by
  unfold commit commitLog
  split
  · exact .refl _
  · rename_i n
    split
    · exact .refl _
    · have h1 := grew_dispatch db tx.id tx.events n
      unfold commitRest
      split
      · rename_i d hd; rw [hd] at h1; exact h1
      · rename_i d hd
        rw [hd] at h1
        split
        · exact h1
        · exact h1.trans (grew_deleteTx ..)

theorem grew_checkTx (ask : DEv → TxAns) (db : DB) (tx : TxRow) (n : Nat) : Grew db (checkTx ask db tx n) (checkLog ask db tx n) := by
  unfold checkTx checkLog
  cases tx.events with
  | nil => exact .refl _
  | cons e es =>
    dsimp only
    cases ask e with
    | unknown => exact .refl _
    | commit => exact grew_commit db tx n
    | rollback =>
      dsimp only
      unfold rollback; split
      · exact grew_deleteTx ..
      · exact .refl _

theorem grew_checks (ask : DEv → TxAns) (ns : Nat → Nat) (l : List TxRow) : ∀ db, Grew db (l.foldl (fun d t => checkTx ask d t (ns t.id)) db) (checksLog ask ns l db) := by
  induction l with
  | nil => intro db; exact .refl _
  | cons t l ih => intro db; exact (grew_checkTx ask db t _).trans (ih _)

/-- operations that neither call handlers nor delete events -/
theorem grew_op (db : DB) (op : Op) (h1 : ∀ c s now ans, op ≠ .run c s now ans) (h2 : ∀ c s now, op ≠ .clean c s now) : Grew db (op.apply db) (op.log db) := by
  cases op with
  | dispatch es n => exact grew_dispatch db 0 es n
  | begin s now timeout es ok =>
    simp only [Op.apply, Op.log, dispatchBegin]
    split
    · exact .refl _
    · split
      · exact .refl _
      · exact ⟨⟨[], by simp⟩, Nat.le_refl _, by simp, fun _ h => .inl h⟩
  | commit tx n =>
    simp only [Op.apply, Op.log]
    split
    · exact grew_commit db tx n
    · exact .refl _
  | rollback tx ok =>
    simp only [Op.apply, Op.log, rollback]
    split
    · split
      · exact grew_deleteTx ..
      · exact .refl _
    · exact .refl _
  | check ask s now ns => exact grew_checks ask ns _ db
  | register s =>
    simp only [Op.apply, Op.log, register]
    split
    · exact .refl _
    · exact ⟨⟨[], by simp⟩, Nat.le_refl _, by simp, fun _ h => .inl h⟩
  | run c s now ans => exact absurd rfl (h1 _ _ _ _)
  | clean c s now => exact absurd rfl (h2 _ _ _)

theorem newOf_of_append {σ : Nat} {db db' : DB} (hv : Valid db) {new : List EvRow} (h : db'.events = db.events ++ new) (hn : ∀ e ∈ new, db.nextEv ≤ e.id) :
    newOf σ db db' = new.filter fun e => e.ev.sender == σ := by
  unfold newOf
  rw [h, List.filter_append]
  have h1 : (db.events.filter fun e => e.ev.sender == σ && !(db.events.contains e)) = [] := by
    rw [List.filter_eq_nil_iff]
    intro e he
    simp [he]
  rw [h1, List.nil_append]
  apply List.filter_congr
  intro e he
  have : e ∉ db.events := fun hc => by
    have := hv.evFresh e hc
    have := hn e he
    omega
  simp [this]

theorem newOf_of_subset {σ : Nat} {db db' : DB} (h : ∀ e ∈ db'.events, e ∈ db.events) : newOf σ db db' = [] := by
  unfold newOf
  rw [List.filter_eq_nil_iff]
  intro e he
  simp [h e he]

theorem storedOrder_append (σ : Nat) (q : List Op) : ∀ (p : List Op) (db : DB), storedOrder σ db (p ++ q) = storedOrder σ db p ++ storedOrder σ (runOps db p) q := by
  intro p
  induction p with
  | nil => intro db; rfl
  | cons op p ih => intro db; simp [storedOrder, ih, runOps]

theorem finv_stored {c : Cfg} (hcount : Counting c.strategy) {σ svc : Nat} {ops : List Op} (hT : InTime c 0 ops) (hF : FifoStored c (emptyDB []) σ svc ops) : ∀ p q, ops = p ++ q →
    FInv σ svc (runOps (emptyDB []) p) (opsLog (emptyDB []) p) (storedOrder σ (emptyDB []) p) := by
  intro p
  induction p using List.reverseRecOn with
  | nil =>
    intro q _
    constructor <;> simp [runOps, emptyDB, opsLog, handledOf, storedOrder]
  | append_singleton p op ih =>
    intro q hq
    have hq' : ops = p ++ op :: q := by simpa using hq
    have hI := ih (op :: q) hq'
    have hTp : InTime c 0 p := inTime_append (hq' ▸ hT)
    have hb := base hcount hTp
    rw [runOps_append, opsLog_append, storedOrder_append]
    have hall : storedOrder σ (emptyDB []) ops = (storedOrder σ (emptyDB []) p ++ newOf σ (runOps (emptyDB []) p) (op.apply (runOps (emptyDB []) p))) ++ storedOrder σ (op.apply (runOps (emptyDB []) p)) q := by
      rw [hq', storedOrder_append]; simp [storedOrder]
    have hord := hF.order
    have hff := hF.fifo
    rw [hall] at hord hff
    replace hord := (List.pairwise_append.1 hord).1
    have hwhole := hF.whole p op q hq'
    have hwin := fun c' now ans (h : op = .run c' svc now ans) => hF.window p c' now ans q (by rw [← h]; exact hq')
    rw [hq'] at hT
    have hrun := fun c' s now ans (h : op = .run c' s now ans) => FInv.run hcount (h ▸ hT) hI
    simp only [runOps, opsLog, storedOrder, List.foldl_cons, List.foldl_nil, List.nil_append, List.append_nil] at *
    generalize List.foldl Op.apply (emptyDB []) p = db at *
    generalize opsLog (emptyDB []) p = log at *
    generalize storedOrder σ (emptyDB []) p = R at *
    by_cases hr : ∃ c' s now ans, op = .run c' s now ans
    · obtain ⟨c', s, now, ans, rfl⟩ := hr
      have hsm := same_handleEvents (c := c') (svc := s) (now := now) (ans := ans) hb.valid.recIds
      have : newOf σ db ((Op.run c' s now ans).apply db) = [] := newOf_of_subset (by intro e he; have : e ∈ (handleEvents c' s now ans db).1.events := he; rwa [hsm.events] at this)
      rw [this, List.append_nil]
      refine hrun c' s now ans rfl ?_
      rintro rfl
      exact hwin c' now ans rfl
    · by_cases hc : ∃ c' s now, op = .clean c' s now
      · obtain ⟨c', s, now, rfl⟩ := hc
        obtain ⟨h1, h2⟩ := foldl_cleanBatch (svc := s) (batches (cleanable c' db s now)) db
        have h3 : ∀ (bs : List (List Nat)) (d : DB), (bs.foldl (cleanBatch s) d).nextEv = d.nextEv ∧ (bs.foldl (cleanBatch s) d).txs = d.txs := by
          intro bs
          induction bs with
          | nil => intro d; exact ⟨rfl, rfl⟩
          | cons b bs ih => intro d; exact ih _
        have hsub : ∀ e ∈ ((Op.clean c' s now).apply db).events, e ∈ db.events := fun e he => ((h2 e).1 he).1
        rw [newOf_of_subset hsub, List.append_nil]
        have := hI.noneOf (db' := (Op.clean c' s now).apply db) (l := []) hb.valid ⟨⟨[], fun e he => .inl (hsub e he), by simp⟩, Nat.le_of_eq (h3 _ _).1.symm, ?_⟩ (by simp)
        · simpa [Op.log] using this
        · intro t ht
          have : t ∈ ((batches (cleanable c' db s now)).foldl (cleanBatch s) db).txs := ht
          rwa [(h3 _ _).2] at this
      · have hg := grew_op db op (fun c' s now ans h => hr ⟨c', s, now, ans, h⟩) (fun c' s now h => hc ⟨c', s, now, h⟩)
        obtain ⟨⟨new, e1, e2, e3⟩, g2, g3, g4⟩ := hg
        have hnew := newOf_of_append (σ := σ) hb.valid e1 fun e he => (e3 e he).1
        rw [hnew] at hord hff hwhole ⊢
        refine hI.grow (new := new) hb.valid g3 g2 (by intro e he; rw [e1] at he; exact List.mem_append.1 he) (fun e he => (e3 e he).1) ?_ ?_ ?_ ?_ ?_ ?_ ?_
        · intro a ha
          have ha := List.mem_of_mem_filter ha
          exact ⟨ha, (e3 a ha).2⟩
        · intro e he hs; exact List.mem_filter.2 ⟨he, by simp [hs]⟩
        · intro e he a ha hi
          have ha := List.mem_of_mem_filter ha
          obtain ⟨i, hi', rfl⟩ := List.mem_iff_getElem.1 he
          obtain ⟨j, hj', rfl⟩ := List.mem_iff_getElem.1 ha
          rcases Nat.lt_trichotomy i j with hij | hij | hij
          · have := List.pairwise_iff_getElem.1 e2 i j hi' hj' hij; omega
          · subst hij; rfl
          · have := List.pairwise_iff_getElem.1 e2 j i hj' hi' hij; omega
        · exact e2.sublist List.filter_sublist
        · exact hord.imp fun h => h
        · intro a ha
          exact ⟨hff a (List.mem_append_left _ (List.mem_append_right _ ha)), by simpa using (List.mem_filter.1 ha).2⟩
        · intro a ha
          obtain ⟨r, hr1, hr2, hr3⟩ := hwhole a ha
          rcases g4 r hr1 with h | h
          · obtain ⟨e, he, hi⟩ := hb.integrity r h
            have h1 := hb.valid.evFresh e he
            have h2 := (e3 a (List.mem_of_mem_filter ha)).1
            omega
          · rw [hr2, hr3] at h; exact h

/-! ## the theorems -/

/-- **C124** Whether the events of a FIFO sender come into the event table by `Dispatch`, by `Commit` or by check-back: if they come in in the order of their creation, those a service has handled successfully are a prefix of them: in the same order, each once,
without gaps. -/
theorem C124_prefix_partial {c : Cfg} (hcount : Counting c.strategy) {σ svc : Nat} {ops : List Op} (hT : InTime c 0 ops) (hF : FifoStored c (emptyDB []) σ svc ops) :
    handledOf σ svc (opsLog (emptyDB []) ops) <+: storedOrder σ (emptyDB []) ops :=
  (finv_stored hcount hT hF ops [] (by simp)).done

/-- **C124** Whenever its handler is called for an event of the sender, this is the first one not yet handled. The log is latest first. -/
theorem C124_next_partial {c : Cfg} (hcount : Counting c.strategy) {σ svc : Nat} {ops : List Op} (hT : InTime c 0 ops) (hF : FifoStored c (emptyDB []) σ svc ops) {l1 l2 : List Log} {i t : Nat} {e : EvRow}
    (hlog : opsLog (emptyDB []) ops = l1 ++ .called svc i e t :: l2) (hs : e.ev.sender = σ) : handledOf σ svc l2 ++ [e] <+: storedOrder σ (emptyDB []) ops :=
  (finv_stored hcount hT hF ops [] (by simp)).next l1 l2 i e t hlog hs

end Ddd.Bus
