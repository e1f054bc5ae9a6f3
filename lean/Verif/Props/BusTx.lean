import Verif.Proofs.Bus
/-!
# C37 (consequences) and C38: transactional events on the MySQL event bus
-/
set_option linter.unusedVariables false
set_option linter.unusedSimpArgs false
namespace Ddd.Bus

/-! ## every operation keeps the schema guarantees -/

theorem valid_checkTx {ask : DEv → TxAns} {db : DB} {tx : TxRow} {n : Nat} (ht : tx.id < db.nextTx) (hv : Valid db) :
    Valid (checkTx ask db tx n) ∧ (checkTx ask db tx n).nextTx = db.nextTx := by
  unfold checkTx
  split
  · exact ⟨hv, rfl⟩
  · split
    · exact ⟨hv, rfl⟩
    · rcases commit_cases db tx n with h | ⟨d, hd, h | h⟩
      · rw [h]; exact ⟨hv, rfl⟩
      · rw [h]; exact ⟨hd.valid ht hv, hd.nextTx⟩
      · rw [h]; exact ⟨valid_deleteTx (hd.valid ht hv) _, hd.nextTx⟩
    · unfold rollback
      split
      · exact ⟨valid_deleteTx hv _, rfl⟩
      · exact ⟨hv, rfl⟩

theorem valid_checks {ask : DEv → TxAns} {ns : Nat → Nat} (l : List TxRow) (db : DB) (hl : ∀ t ∈ l, t.id < db.nextTx) (hv : Valid db) :
    Valid (l.foldl (fun d t => checkTx ask d t (ns t.id)) db) := by
  induction l generalizing db with
  | nil => exact hv
  | cons t l ih =>
    have h := valid_checkTx (ask := ask) (n := ns t.id) (hl t (by simp)) hv
    exact ih _ (fun t' ht' => by rw [h.2]; exact hl t' (by simp [ht'])) h.1

theorem valid_apply {db : DB} (hv : Valid db) (op : Op) : Valid (op.apply db) := by
  cases op with
  | dispatch es n => exact (added_dispatch db 0 es n).valid hv.txPos hv
  | begin svc now timeout es ok =>
    simp only [Op.apply, dispatchBegin]
    split
    · exact hv
    · split
      · exact hv
      · refine ⟨hv.evIds, hv.evFresh, hv.recIds, hv.recFresh, hv.recEv, hv.recKeys, hv.svcs, ?_, ?_, ?_, Nat.succ_pos _⟩
        · simp only [List.map_append, List.map_cons, List.map_nil]
          rw [List.nodup_append]
          refine ⟨hv.txIds, by simp, ?_⟩
          intro a ha b hb hab
          obtain ⟨t, ht, rfl⟩ := List.mem_map.1 ha
          have := hv.txFresh t ht
          simp at hb; omega
        · intro t ht
          rcases List.mem_append.1 ht with ht | ht
          · have := hv.txFresh t ht; show t.id < db.nextTx + 1; omega
          · simp at ht; subst ht; show db.nextTx < db.nextTx + 1; omega
        · intro e he
          have := hv.evTx e he; show e.transId < db.nextTx + 1; omega
  | commit tx n =>
    simp only [Op.apply]
    split
    · rename_i ht
      rcases commit_cases db tx n with h | ⟨d, hd, h | h⟩
      · rw [h]; exact hv
      · rw [h]; exact hd.valid ht hv
      · rw [h]; exact valid_deleteTx (hd.valid ht hv) _
    · exact hv
  | rollback tx ok =>
    simp only [Op.apply, rollback]
    split
    · split
      · exact valid_deleteTx hv _
      · exact hv
    · exact hv
  | check ask svc now ns =>
    exact valid_checks _ _ (fun t ht => hv.txFresh t (List.mem_of_mem_filter ht)) hv
  | register svc =>
    simp only [Op.apply, register]
    split
    · exact hv
    · rename_i h
      refine ⟨hv.evIds, hv.evFresh, hv.recIds, hv.recFresh, hv.recEv, hv.recKeys, ?_, hv.txIds, hv.txFresh, hv.evTx, hv.txPos⟩
      rw [List.nodup_append]
      refine ⟨hv.svcs, by simp, ?_⟩
      intro a ha b hb hab
      simp at hb; subst hb; subst hab; exact h ha
  | run c svc now ans => exact (same_handleEvents hv.recIds).valid hv
  | clean c svc now => exact removed_clean.valid hv

/-- Every history keeps the schema guarantees. -/
theorem valid_runOps {db : DB} (hv : Valid db) (ops : List Op) : Valid (runOps db ops) := by
  induction ops generalizing db with
  | nil => exact hv
  | cons op ops ih => exact ih (valid_apply hv op)

/-- C36 in all histories: after any operations, starting with an empty database, a successful `Dispatch` stores the events and exactly one fresh delivery record per event and registered service. -/
theorem C36_histories (ops : List Op) {db' : DB} {tid : Nat} {es : List DEv} {n : Nat} (h : dispatch (runOps (emptyDB []) ops) tid es n = (db', true)) :
    (runOps (emptyDB []) ops).services.Nodup ∧ ∃ ps, StoredAs (runOps (emptyDB []) ops) db' tid es ps ∧ RecordedFor (runOps (emptyDB []) ops) db' (runOps (emptyDB []) ops).services ps :=
  have hv := valid_runOps (valid_emptyDB List.nodup_nil) ops
  have ⟨ps, h1, h2, _⟩ := C36_dispatch_effect hv h
  ⟨hv.svcs, ps, h1, h2⟩

/-! ## C37: an event without delivery record is lost -/

theorem commit_noDelivery {db : DB} {i : Nat} (hi : i < db.nextEv) (h : NoDelivery db i) (tx : TxRow) (n : Nat) :
    NoDelivery (commit db tx n).1 i ∧ i < (commit db tx n).1.nextEv := by
  have key : ∀ d, Added tx.id db d → NoDelivery d i ∧ i < d.nextEv := by
    intro d hd
    obtain ⟨rs, h1, h2⟩ := hd.recs
    refine ⟨?_, lt_of_lt_of_le hi hd.nextEv⟩
    intro r hr
    rw [h1] at hr
    rcases List.mem_append.1 hr with hr | hr
    · exact h r hr
    · have := h2 r hr; omega
  rcases commit_cases db tx n with h' | ⟨d, hd, h' | h'⟩
  · rw [h']; exact ⟨h, hi⟩
  · rw [h']; exact key d hd
  · rw [h']; exact key d hd

theorem apply_noDelivery {db : DB} (hv : Valid db) {i : Nat} (hi : i < db.nextEv) (h : NoDelivery db i) (op : Op) : NoDelivery (op.apply db) i ∧ i < (op.apply db).nextEv := by
  cases op with
  | dispatch es n =>
    have hd := added_dispatch db 0 es n
    obtain ⟨rs, h1, h2⟩ := hd.recs
    refine ⟨?_, lt_of_lt_of_le hi hd.nextEv⟩
    intro r hr
    simp only [Op.apply] at hr
    rw [h1] at hr
    rcases List.mem_append.1 hr with hr | hr
    · exact h r hr
    · have := h2 r hr; omega
  | begin svc now timeout es ok =>
    simp only [Op.apply, dispatchBegin]
    split
    · exact ⟨h, hi⟩
    · split
      · exact ⟨h, hi⟩
      · exact ⟨h, hi⟩
  | commit tx n =>
    simp only [Op.apply]
    split
    · exact commit_noDelivery hi h tx n
    · exact ⟨h, hi⟩
  | rollback tx ok =>
    simp only [Op.apply, rollback]
    split
    · split
      · exact ⟨h, hi⟩
      · exact ⟨h, hi⟩
    · exact ⟨h, hi⟩
  | check ask svc now ns =>
    simp only [Op.apply, handleTxs]
    generalize (db.txs.filter _) = l
    clear hv
    induction l generalizing db with
    | nil => exact ⟨h, hi⟩
    | cons t l ih =>
      have : NoDelivery (checkTx ask db t (ns t.id)) i ∧ i < (checkTx ask db t (ns t.id)).nextEv := by
        unfold checkTx
        split
        · exact ⟨h, hi⟩
        · split
          · exact ⟨h, hi⟩
          · exact commit_noDelivery hi h t _
          · unfold rollback
            split
            · exact ⟨h, hi⟩
            · exact ⟨h, hi⟩
      exact ih this.2 this.1
  | register svc =>
    simp only [Op.apply, register]
    split
    · exact ⟨h, hi⟩
    · exact ⟨h, hi⟩
  | run c svc now ans =>
    have hs := same_handleEvents (c := c) (svc := svc) (now := now) (ans := ans) hv.recIds
    refine ⟨?_, by simp only [Op.apply]; rw [hs.nextEv]; exact hi⟩
    intro r hr
    obtain ⟨x, hx, hk⟩ := mem_of_keys hs.keys hr
    rw [← (Rec.key_eq.1 hk).2.2]; exact h x hx
  | clean c svc now =>
    have hs := removed_clean (c := c) (svc := svc) (now := now) (db := db)
    exact ⟨fun r hr => h r (hs.recs.subset hr), by simp only [Op.apply]; rw [hs.nextEv]; exact hi⟩

/-- **C37** (consequence) Nothing repairs the damage: an event that was stored without delivery records never gets one, whatever happens afterwards. -/
theorem C37_lost_forever {db : DB} (hv : Valid db) {i : Nat} (hi : i < db.nextEv) (h : NoDelivery db i) (ops : List Op) : NoDelivery (runOps db ops) i := by
  induction ops generalizing db with
  | nil => exact h
  | cons op ops ih =>
    have := apply_noDelivery hv hi h op
    exact ih (valid_apply hv op) this.2 this.1

/-! ## C38 -/

/-- events of transaction `tid` -/
def eventsOf (db : DB) (tid : Nat) : List EvRow := db.events.filter fun e => decide (e.transId = tid)

/-- **C38** `DispatchBegin` makes nothing visible: it only adds one transaction row that holds the events. -/
theorem C38_begin_invisible {db db' : DB} {svc now timeout : Nat} {es : List DEv} {ok : Bool} {tx : TxRow} (hv : Valid db)
    (h : dispatchBegin db svc now timeout es ok = (db', some tx)) :
    db'.events = db.events ∧ db'.recs = db.recs ∧ db'.services = db.services ∧ db'.txs = db.txs ++ [tx] ∧ tx.events = es ∧ tx.service = svc ∧ tx.due = now + timeout ∧
      (∀ t ∈ db.txs, t.id ≠ tx.id) ∧ eventsOf db' tx.id = [] := by
  unfold dispatchBegin at h
  split at h
  · simp at h
  · split at h
    · simp at h
    · simp only [Prod.mk.injEq, Option.some.injEq] at h
      obtain ⟨rfl, rfl⟩ := h
      refine ⟨rfl, rfl, rfl, rfl, rfl, rfl, rfl, ?_, ?_⟩
      · intro t ht
        have := hv.txFresh t ht
        simp only [ne_eq]; omega
      · simp only [eventsOf, List.filter_eq_nil_iff, decide_eq_true_eq]
        intro e he
        have := hv.evTx e he
        show e.transId ≠ db.nextTx; omega

/-- Operations that are not a `Commit` of transaction `tid` by a client. -/
def Op.noCommitOf (tid : Nat) : Op → Prop
  | .commit tx _ => tx.id ≠ tid
  | _ => True

/-- Operations that do not commit transaction `tx`, neither by a client nor by the answer of the checker. -/
def Op.leavesOpen (tx : TxRow) : Op → Prop
  | .commit t _ => t.id ≠ tx.id
  | .check ask _ _ _ => ∀ e, tx.events.head? = some e → ask e ≠ .commit
  | _ => True

/-- effect on one transaction of a step that does not commit it -/
structure Quiet (tid : Nat) (db db' : DB) : Prop where
  ev : (eventsOf db' tid).Sublist (eventsOf db tid)
  row : ∀ t ∈ db'.txs, t.id = tid → t ∈ db.txs ∨ db.nextTx ≤ tid
  next : db.nextTx ≤ db'.nextTx

theorem Quiet.refl (tid : Nat) (db : DB) : Quiet tid db db := ⟨.refl _, fun t h _ => .inl h, Nat.le_refl _⟩

theorem Quiet.trans {tid : Nat} {a b c : DB} (h : Quiet tid a b) (h' : Quiet tid b c) : Quiet tid a c :=
  ⟨h'.ev.trans h.ev, fun t ht hi => (h'.row t ht hi).elim (fun h1 => h.row t h1 hi) (fun h1 => .inr (h.next.trans h1)), h.next.trans h'.next⟩

theorem quiet_added {tid t : Nat} (hne : t ≠ tid) {db d : DB} (hd : Added t db d) : Quiet tid db d := by
  obtain ⟨ps, h1, h2⟩ := hd.events
  refine ⟨?_, fun t' ht' _ => .inl (hd.txs ▸ ht'), hd.nextTx.ge⟩
  have : ps.filter (fun e => decide (e.transId = tid)) = [] := by
    rw [List.filter_eq_nil_iff]
    intro p hp
    simp [(h2 p hp).1, hne]
  simp [eventsOf, h1, List.filter_append, this]

theorem quiet_deleteTx (tid : Nat) (db : DB) (i : Nat) : Quiet tid db (deleteTx db i) :=
  ⟨.refl _, fun t ht _ => .inl (List.mem_of_mem_filter ht), Nat.le_refl _⟩

theorem quiet_commit {tid : Nat} {db : DB} {tx : TxRow} (hne : tx.id ≠ tid) (n : Nat) : Quiet tid db (commit db tx n).1 := by
  rcases commit_cases db tx n with h' | ⟨d, hd, h' | h'⟩
  · rw [h']; exact .refl _ _
  · rw [h']; exact quiet_added hne hd
  · rw [h']; exact (quiet_added hne hd).trans (quiet_deleteTx _ _ _)

theorem quiet_checkTx {tid : Nat} {ask : DEv → TxAns} {db : DB} {tx : TxRow} (h : tx.id ≠ tid ∨ ∀ e, tx.events.head? = some e → ask e ≠ .commit) (n : Nat) :
    Quiet tid db (checkTx ask db tx n) := by
  unfold checkTx
  split
  · exact .refl _ _
  · rename_i e es he
    split
    · exact .refl _ _
    · rename_i ha
      rcases h with h | h
      · exact quiet_commit h n
      · exact absurd ha (h e (by simp [he]))
    · unfold rollback
      split
      · exact quiet_deleteTx _ _ _
      · exact .refl _ _

theorem quiet_checks {tid : Nat} {ask : DEv → TxAns} {ns : Nat → Nat} (l : List TxRow) (db : DB)
    (h : ∀ tx ∈ l, tx.id ≠ tid ∨ ∀ e, tx.events.head? = some e → ask e ≠ .commit) : Quiet tid db (l.foldl (fun d t => checkTx ask d t (ns t.id)) db) := by
  induction l generalizing db with
  | nil => exact .refl _ _
  | cons t l ih => exact (quiet_checkTx (h t (by simp)) _).trans (ih _ fun t' ht' => h t' (by simp [ht']))

theorem quiet_apply {tid : Nat} (h0 : tid ≠ 0) {db : DB} (hv : Valid db) {op : Op} (hop : op.noCommitOf tid)
    (hc : ∀ ask svc now ns, op = .check ask svc now ns → ∀ t ∈ db.txs, t.id = tid → ∀ e, t.events.head? = some e → ask e ≠ .commit) : Quiet tid db (op.apply db) := by
  cases op with
  | dispatch es n => exact quiet_added (Ne.symm h0) (added_dispatch db 0 es n)
  | begin svc now timeout es ok =>
    simp only [Op.apply, dispatchBegin]
    split
    · exact .refl _ _
    · split
      · exact .refl _ _
      · refine ⟨.refl _, ?_, by simp⟩
        intro t ht hi
        rcases List.mem_append.1 ht with ht | ht
        · exact .inl ht
        · simp at ht; subst ht; right; exact le_of_eq hi
  | commit tx n =>
    simp only [Op.apply]
    split
    · exact quiet_commit hop n
    · exact .refl _ _
  | rollback tx ok =>
    simp only [Op.apply, rollback]
    split
    · split
      · exact quiet_deleteTx _ _ _
      · exact .refl _ _
    · exact .refl _ _
  | check ask svc now ns =>
    refine quiet_checks _ _ ?_
    intro t ht
    by_cases hi : t.id = tid
    · exact .inr (hc ask svc now ns rfl t (List.mem_of_mem_filter ht) hi)
    · exact .inl hi
  | register svc =>
    simp only [Op.apply, register]
    split <;> exact ⟨.refl _, fun t h _ => .inl h, Nat.le_refl _⟩
  | run c svc now ans =>
    have hs := same_handleEvents (c := c) (svc := svc) (now := now) (ans := ans) hv.recIds
    refine ⟨?_, fun t ht _ => .inl (hs.txs ▸ ht), hs.nextTx.ge⟩
    simp only [Op.apply, eventsOf]; rw [hs.events]
  | clean c svc now =>
    have hs := removed_clean (c := c) (svc := svc) (now := now) (db := db)
    exact ⟨hs.events.filter _, fun t ht _ => .inl (hs.txs ▸ ht), hs.nextTx.ge⟩

/-- **C38** Until the transaction is committed, by the client or by the checker's answer, its events are not visible: after `DispatchBegin` no history without a commit of it (but with
arbitrary other transactions, dispatches, check-backs, crashes, handlings and cleanings) stores an event of it. -/
theorem C38_invisible_until_commit {db db' : DB} (hv : Valid db) {svc now timeout : Nat} {es : List DEv} {ok : Bool} {tx : TxRow}
    (h : dispatchBegin db svc now timeout es ok = (db', some tx)) (ops : List Op) (hops : ∀ op ∈ ops, op.leavesOpen tx) : eventsOf (runOps db' ops) tx.id = [] := by
  have hb := C38_begin_invisible hv h
  have hv' : Valid db' := by
    have := valid_apply hv (.begin svc now timeout es ok)
    simp only [Op.apply, h] at this; exact this
  have hid : tx.id < db'.nextTx := hv'.txFresh tx (by rw [hb.2.2.2.1]; simp)
  have h0 : tx.id ≠ 0 := by
    unfold dispatchBegin at h
    split at h
    · simp at h
    · split at h
      · simp at h
      · simp only [Prod.mk.injEq, Option.some.injEq] at h
        obtain ⟨-, rfl⟩ := h
        have := hv.txPos; simp only [ne_eq]; omega
  have hrow : ∀ t ∈ db'.txs, t.id = tx.id → t = tx := by
    intro t ht hi
    rw [hb.2.2.2.1] at ht
    rcases List.mem_append.1 ht with ht | ht
    · exact absurd hi (hb.2.2.2.2.2.2.2.1 t ht)
    · simpa using ht
  have hev := hb.2.2.2.2.2.2.2.2
  clear hb h
  clear hv
  induction ops generalizing db' with
  | nil => exact hev
  | cons op ops ih =>
    have hop := hops op (by simp)
    have hq : Quiet tx.id db' (op.apply db') := by
      refine quiet_apply h0 hv' ?_ ?_
      · cases op <;> simp_all [Op.leavesOpen, Op.noCommitOf]
      · rintro ask svc now ns rfl t ht hi e he
        rw [hrow t ht hi] at he
        exact hop e he
    refine ih (fun op h => hops op (by simp [h])) (valid_apply hv' op) (lt_of_lt_of_le hid hq.next) ?_ ?_
    · intro t ht hi
      rcases hq.row t ht hi with h | h
      · exact hrow t h hi
      · omega
    · have := hq.ev; rw [hev] at this; exact List.eq_nil_of_sublist_nil this

/-- Once the row of a transaction is gone, nothing but a client calling `Commit` with its context can store its events (again). -/
theorem closed_stays {db : DB} (hv : Valid db) {tid : Nat} (h0 : tid ≠ 0) (hid : tid < db.nextTx) (hrow : ∀ t ∈ db.txs, t.id ≠ tid) (ops : List Op)
    (hops : ∀ op ∈ ops, op.noCommitOf tid) : (eventsOf (runOps db ops) tid).Sublist (eventsOf db tid) := by
  induction ops generalizing db with
  | nil => exact .refl _
  | cons op ops ih =>
    have hq : Quiet tid db (op.apply db) := by
      refine quiet_apply h0 hv (hops op (by simp)) ?_
      rintro ask svc now ns rfl t ht hi
      exact absurd hi (hrow t ht)
    refine (ih (valid_apply hv op) (lt_of_lt_of_le hid hq.next) ?_ fun op h => hops op (by simp [h])).trans hq.ev
    intro t ht hi
    rcases hq.row t ht hi with h | h
    · exact hrow t h hi
    · omega

/-- **C38** (partial) After a successful `Rollback` before any commit the events never become visible, whatever happens and whatever the checker answers later; missing: a client that calls `Commit` with
the context it has just rolled back does dispatch (`C38_commit_after_rollback`). -/
theorem C38_rolled_back_partial {db : DB} (hv : Valid db) {tx : TxRow} (htx : tx ∈ db.txs) (h0 : tx.id ≠ 0) (hopen : eventsOf db tx.id = []) (ops : List Op)
    (hops : ∀ op ∈ ops, op.noCommitOf tx.id) : eventsOf (runOps (rollback db tx true).1 ops) tx.id = [] := by
  have h := closed_stays (db := deleteTx db tx.id) (valid_deleteTx hv _) h0 (hv.txFresh tx htx) (fun t ht hi => by
    have := (List.mem_filter.1 ht).2; simp [hi] at this) ops hops
  have h2 : eventsOf (deleteTx db tx.id) tx.id = [] := hopen
  rw [h2] at h
  exact List.eq_nil_of_sublist_nil h

/-- **C38** A `Commit` that returns nil when no event of the transaction is stored: every event of the transaction is stored once, with one pending record per registered service, and the transaction is
closed. -/
theorem C38_commit_delivers {db db' : DB} (hv : Valid db) {tx : TxRow} (htx : tx.id < db.nextTx) (hopen : eventsOf db tx.id = []) {n : Nat}
    (h : commit db tx n = (db', true)) :
    ∃ ps, StoredAs db db' tx.id tx.events ps ∧ eventsOf db' tx.id = ps ∧ RecordedFor db db' db.services ps ∧ db'.services = db.services ∧
      db'.txs = db.txs.filter fun t => decide (t.id ≠ tx.id) := by
  unfold commit at h
  split at h
  · simp at h
  · rename_i n
    split at h
    · rename_i hl
      simp only [commitLook, List.any_eq_true, beq_iff_eq] at hl
      obtain ⟨e, he, hi⟩ := hl
      have : e ∈ eventsOf db tx.id := by simp [eventsOf, he, hi]
      rw [hopen] at this; simp at this
    · unfold commitRest at h
      split at h
      · simp at h
      · rename_i d hd
        split at h
        · simp at h
        · simp only [Prod.mk.injEq] at h
          obtain ⟨rfl, -⟩ := h
          obtain ⟨ps, h1, h2, h3, h4⟩ := C36_dispatch_effect hv hd
          refine ⟨ps, h1, ?_, h2, h3, by simp [deleteTx, h4]⟩
          have hps : ps.filter (fun e => decide (e.transId = tx.id)) = ps := by
            rw [List.filter_eq_self]; intro p hp; simp [h1.2.2.1 p hp]
          have := h1.1
          simp only [eventsOf] at hopen
          simp [eventsOf, deleteTx, this, List.filter_append, hopen, hps]

/-- **C38** (partial) After a completed commit neither check-backs nor anything else stores the events again; missing: a client repeating `Commit` after its events were cleaned
(`C38_recommit_after_clean`) or overlapping with the check-back (`C38_commit_races_checkback`). -/
theorem C38_committed_once_partial {db db' : DB} (hv : Valid db) {tx : TxRow} (htx : tx.id < db.nextTx) (h0 : tx.id ≠ 0) (hopen : eventsOf db tx.id = []) {n : Nat}
    (h : commit db tx n = (db', true)) (ops : List Op) (hops : ∀ op ∈ ops, op.noCommitOf tx.id) :
    (eventsOf (runOps db' ops) tx.id).Sublist (eventsOf db' tx.id) := by
  have hv' : Valid db' := by
    have := valid_apply hv (.commit tx n)
    simp only [Op.apply, htx, if_true, h] at this; exact this
  obtain ⟨ps, h1, h2, h3, h4, h5⟩ := C38_commit_delivers hv htx hopen h
  have hn : tx.id < db'.nextTx := by
    rcases commit_cases db tx n with h' | ⟨d, hd, h' | h'⟩ <;> rw [h] at h' <;> simp only at h'
    · rw [h']; exact htx
    · rw [h', hd.nextTx]; exact htx
    · rw [h']; show _ < d.nextTx; rw [hd.nextTx]; exact htx
  refine closed_stays hv' h0 hn ?_ ops hops
  intro t ht hi
  rw [h5] at ht
  simpa [hi] using (List.mem_filter.1 ht).2

/-- **C38** Repeating `Commit` while an event of the transaction is stored does nothing and returns nil. -/
theorem C38_repeat_is_noop {db : DB} {tx : TxRow} (h : eventsOf db tx.id ≠ []) (n : Nat) : commit db tx (n + 1) = (db, true) := by
  have : commitLook db tx = true := by
    obtain ⟨e, he⟩ := List.exists_mem_of_ne_nil _ h
    simp only [eventsOf, List.mem_filter, decide_eq_true_eq] at he
    simp only [commitLook, List.any_eq_true, beq_iff_eq]
    exact ⟨e, he⟩
  simp [commit, this]

/-! ### check-back -/

/-- what the check-back of one transaction leaves alone for another one -/
structure Frame (tid : Nat) (db db' : DB) : Prop where
  ev : eventsOf db' tid = eventsOf db tid
  row : ∀ t, t.id = tid → (t ∈ db'.txs ↔ t ∈ db.txs)
  services : db'.services = db.services
  next : db'.nextTx = db.nextTx
  recs : ∃ rs, db'.recs = db.recs ++ rs

theorem Frame.refl (tid : Nat) (db : DB) : Frame tid db db := ⟨rfl, fun _ _ => Iff.rfl, rfl, rfl, ⟨[], by simp⟩⟩

theorem Frame.trans {tid : Nat} {a b c : DB} (h : Frame tid a b) (h' : Frame tid b c) : Frame tid a c := by
  refine ⟨h'.ev.trans h.ev, fun t ht => (h'.row t ht).trans (h.row t ht), h'.services.trans h.services, h'.next.trans h.next, ?_⟩
  obtain ⟨r1, h1⟩ := h.recs
  obtain ⟨r2, h2⟩ := h'.recs
  exact ⟨r1 ++ r2, by rw [h2, h1, List.append_assoc]⟩

theorem frame_added {tid t : Nat} (hne : t ≠ tid) {db d : DB} (hd : Added t db d) : Frame tid db d := by
  obtain ⟨ps, h1, h2⟩ := hd.events
  obtain ⟨rs, h3, -⟩ := hd.recs
  refine ⟨?_, fun t _ => by rw [hd.txs], hd.services, hd.nextTx, ⟨rs, h3⟩⟩
  have : ps.filter (fun e => decide (e.transId = tid)) = [] := by
    rw [List.filter_eq_nil_iff]
    intro p hp
    simp [(h2 p hp).1, hne]
  simp [eventsOf, h1, List.filter_append, this]

theorem frame_deleteTx {tid i : Nat} (hne : i ≠ tid) (db : DB) : Frame tid db (deleteTx db i) :=
  ⟨rfl, fun t ht => by simp [deleteTx, List.mem_filter, ht, Ne.symm hne], rfl, rfl, ⟨[], by simp [deleteTx]⟩⟩

theorem frame_checkTx {tid : Nat} {ask : DEv → TxAns} {db : DB} {tx : TxRow} (hne : tx.id ≠ tid) (n : Nat) : Frame tid db (checkTx ask db tx n) := by
  unfold checkTx
  split
  · exact .refl _ _
  · split
    · exact .refl _ _
    · rcases commit_cases db tx n with h' | ⟨d, hd, h' | h'⟩
      · rw [h']; exact .refl _ _
      · rw [h']; exact frame_added hne hd
      · rw [h']; exact (frame_added hne hd).trans (frame_deleteTx hne _)
    · unfold rollback
      split
      · exact frame_deleteTx hne _
      · exact .refl _ _

theorem frame_checks {tid : Nat} {ask : DEv → TxAns} {ns : Nat → Nat} (l : List TxRow) (db : DB) (h : ∀ t ∈ l, t.id ≠ tid) :
    Frame tid db (l.foldl (fun d t => checkTx ask d t (ns t.id)) db) := by
  induction l generalizing db with
  | nil => exact .refl _ _
  | cons t l ih => exact (frame_checkTx (h t (by simp)) _).trans (ih _ fun t' ht' => h t' (by simp [ht']))

/-- `db'` is what `handleTransactions` makes of the overdue transaction `tx` whose checker answered `a`. -/
def CheckedBack (db db' : DB) (tx : TxRow) : TxAns → Prop
  | .unknown => tx ∈ db'.txs ∧ eventsOf db' tx.id = []
  | .rollback => (∀ t ∈ db'.txs, t.id ≠ tx.id) ∧ eventsOf db' tx.id = []
  | .commit => (∀ t ∈ db'.txs, t.id ≠ tx.id) ∧ (eventsOf db' tx.id).map EvRow.ev = tx.events ∧ ∀ p ∈ eventsOf db' tx.id, ∀ s ∈ db.services, Pending db' s p.id

theorem CheckedBack.frame {db d d' : DB} {tx : TxRow} {a : TxAns} (hf : Frame tx.id d d') (h : CheckedBack db d tx a) : CheckedBack db d' tx a := by
  cases a with
  | unknown => exact ⟨(hf.row tx rfl).2 h.1, hf.ev.trans h.2⟩
  | rollback => exact ⟨fun t ht hi => h.1 t ((hf.row t hi).1 ht) hi, hf.ev.trans h.2⟩
  | commit =>
    refine ⟨fun t ht hi => h.1 t ((hf.row t hi).1 ht) hi, by rw [hf.ev]; exact h.2.1, ?_⟩
    intro p hp s hs
    rw [hf.ev] at hp
    obtain ⟨r, hr, hr2⟩ := h.2.2 p hp s hs
    obtain ⟨rs, hrs⟩ := hf.recs
    exact ⟨r, by rw [hrs]; simp [hr], hr2⟩

theorem commit_succeeds {db : DB} {tx : TxRow} (hopen : eventsOf db tx.id = []) (he : tx.events ≠ []) {n : Nat} (hn : 4 + db.services.length ≤ n) :
    (commit db tx n).2 = true := by
  match n, hn with
  | 0, hn => omega
  | n + 1, hn =>
    have hl : commitLook db tx = false := by
      rw [commitLook, List.any_eq_false]
      intro e he' hi
      have : e ∈ eventsOf db tx.id := by simp [eventsOf, he', beq_iff_eq.1 hi]
      rw [hopen] at this; simp at this
    simp only [commit, hl, commitRest, Bool.false_eq_true, if_false]
    have hd : (dispatch db tx.id tx.events n).2 = true := C36_dispatch_succeeds he (by omega)
    split
    · rename_i h; rw [h] at hd; simp at hd
    · have : ¬ n < 2 + db.services.length + 1 := by omega
      simp [this]

theorem checkTx_checkedBack {ask : DEv → TxAns} {db : DB} (hv : Valid db) {tx : TxRow} (htx : tx ∈ db.txs) (hopen : eventsOf db tx.id = []) {e : DEv} {es : List DEv}
    (he : tx.events = e :: es) {n : Nat} (hn : 4 + db.services.length ≤ n) : CheckedBack db (checkTx ask db tx n) tx (ask e) := by
  unfold checkTx
  rw [he]
  simp only
  cases ha : ask e with
  | unknown => exact ⟨htx, hopen⟩
  | rollback =>
    have : 0 < n := by omega
    simp only [rollback, this, decide_true, if_true, CheckedBack]
    refine ⟨?_, hopen⟩
    intro t ht
    simpa using (List.mem_filter.1 ht).2
  | commit =>
    have hc := commit_succeeds (n := n) hopen (by rw [he]; simp) hn
    obtain ⟨ps, h1, h2, h3, h4, h5⟩ := C38_commit_delivers (db' := (commit db tx n).1) hv (hv.txFresh tx htx) hopen (n := n) (by rw [← hc])
    refine ⟨?_, by simp only [h2]; exact h1.2.1, ?_⟩
    · intro t ht
      simp only [h5] at ht
      simpa using (List.mem_filter.1 ht).2
    · intro p hp s hs
      simp only [h2] at hp
      obtain ⟨rs, g1, g2, g3⟩ := h3
      have hpos : 0 < rs.countP fun r => decide (r.service = s ∧ r.eventId = p.id) := by rw [g3 s hs p hp]; exact Nat.one_pos
      obtain ⟨r, hr, hr2⟩ := List.countP_pos_iff.1 hpos
      simp only [decide_eq_true_eq] at hr2
      obtain ⟨s', _, p', _, hfr⟩ := g2 r hr
      exact ⟨r, by simp only [g1]; simp [hr], hr2.1, hr2.2, hfr.2.2.1⟩

/-- **C38** The check-back does what the checker says, for any number of overdue transactions in one run: an overdue transaction of the service without stored events is left open (unknown), closed without
any event (rollback), or its events are stored for all registered services and it is closed (commit). -/
theorem C38_checkback {ask : DEv → TxAns} {svc now : Nat} {ns : Nat → Nat} {db : DB} (hv : Valid db) {tx : TxRow} (htx : tx ∈ db.txs) (hs : tx.service = svc) (hd : tx.due < now)
    (hopen : eventsOf db tx.id = []) {e : DEv} {es : List DEv} (he : tx.events = e :: es) (hn : ∀ i, 4 + db.services.length ≤ ns i) :
    CheckedBack db (handleTxs ask svc now ns db) tx (ask e) := by
  have hm : tx ∈ db.txs.filter fun t => t.service == svc && decide (t.due < now) := by simp [htx, hs, hd]
  have hnd : ((db.txs.filter fun t => t.service == svc && decide (t.due < now)).map TxRow.id).Nodup := hv.txIds.sublist (List.filter_sublist.map _)
  have hlt : ∀ t ∈ db.txs.filter fun t => t.service == svc && decide (t.due < now), t.id < db.nextTx := fun t ht => hv.txFresh t (List.mem_of_mem_filter ht)
  unfold handleTxs
  obtain ⟨l1, l2, hl⟩ := List.append_of_mem hm
  rw [hl] at hnd hlt ⊢
  rw [List.map_append, List.map_cons, List.nodup_append, List.nodup_cons] at hnd
  obtain ⟨-, ⟨hn2, -⟩, hn1⟩ := hnd
  rw [List.foldl_append, List.foldl_cons]
  have f1 : Frame tx.id db (l1.foldl (fun d t => checkTx ask d t (ns t.id)) db) :=
    frame_checks l1 db fun t ht hi => hn1 t.id (List.mem_map_of_mem ht) tx.id (by simp) hi
  have v1 : Valid (l1.foldl (fun d t => checkTx ask d t (ns t.id)) db) := valid_checks _ _ (fun t ht => hlt t (by simp [ht])) hv
  generalize l1.foldl (fun d t => checkTx ask d t (ns t.id)) db = d at f1 v1
  refine CheckedBack.frame (frame_checks l2 _ fun t ht hi => hn2 (hi ▸ List.mem_map_of_mem ht)) ?_
  have := checkTx_checkedBack (ask := ask) v1 ((f1.row tx rfl).2 htx) (f1.ev.trans hopen) he (n := ns tx.id) (by rw [f1.services]; exact hn _)
  cases ha : ask e with
  | unknown => rw [ha] at this; exact this
  | rollback => rw [ha] at this; exact this
  | commit => rw [ha] at this; exact ⟨this.1, this.2.1, fun p hp s hs => this.2.2 p hp s (by rw [f1.services]; exact hs)⟩

/-- **C38** Transactions which are not overdue, or belong to another service, are not touched by the check-back. -/
theorem C38_checkback_not_due {ask : DEv → TxAns} {svc now : Nat} {ns : Nat → Nat} {db : DB} (hv : Valid db) {tx : TxRow} (htx : tx ∈ db.txs) (h : tx.service ≠ svc ∨ now ≤ tx.due) :
    tx ∈ (handleTxs ask svc now ns db).txs ∧ eventsOf (handleTxs ask svc now ns db) tx.id = eventsOf db tx.id := by
  have f : Frame tx.id db (handleTxs ask svc now ns db) := by
    refine frame_checks _ _ ?_
    intro t ht hi
    have h1 := List.mem_filter.1 ht
    have : t = tx := List.inj_on_of_nodup_map hv.txIds h1.1 htx hi
    subst this
    simp only [Bool.and_eq_true, beq_iff_eq, decide_eq_true_eq] at h1
    rcases h with h | h
    · exact h h1.2.1
    · omega
  exact ⟨(f.row tx rfl).2 htx, f.ev⟩

/-! ### what is false -/

namespace TxDemo
def ev : DEv := ⟨1, 5, .normal, 10, 0⟩
def tx : TxRow := ⟨1, 7, [ev], 70⟩
/-- after `DispatchBegin` of one event by service 7 -/
def begun : DB := { emptyDB [7] with txs := [tx], nextTx := 2 }
def cfg : Cfg := ⟨1000, 100, 100, limitRetry 3⟩
end TxDemo
open TxDemo

/-- non-vacuity: `begun` is what `DispatchBegin` makes of the empty database. -/
example : dispatchBegin (emptyDB [7]) 7 10 60 [ev] true = (begun, some tx) := rfl

theorem begun_valid : Valid begun := by
  have := valid_apply (valid_emptyDB (ss := [7]) (by decide)) (.begin 7 10 60 [ev] true)
  exact this

/-- non-vacuity of `C38_checkback` for all three answers -/
example (a : TxAns) : CheckedBack begun (handleTxs (fun _ => a) 7 100 (fun _ => 10) begun) tx a :=
  C38_checkback (ask := fun _ => a) begun_valid (by decide +kernel) rfl (by decide) rfl rfl (by intro i; decide)

/-- **C38** is false of the code (1): if the process dies inside `Commit` after the events were inserted and before their delivery records were, the repeated `Commit` and every check-back find the events, report success
and do nothing (`eventbus.go:328-331`): the committed event is never delivered, whatever happens. -/
theorem C38_commit_crash_loses : (commit begun tx 2).2 = false ∧ (commit (commit begun tx 2).1 tx 100).2 = true ∧
    (∃ e ∈ (commit begun tx 2).1.events, e.ev = ev ∧ ∀ ops, NoDelivery (runOps (commit begun tx 2).1 ops) e.id) := by
  refine ⟨by decide +kernel, by decide +kernel, ⟨1, ev, 1⟩, by decide +kernel, rfl, ?_⟩
  intro ops
  have hv := valid_apply begun_valid (.commit tx 2)
  have he : Op.apply begun (.commit tx 2) = (commit begun tx 2).1 := rfl
  rw [he] at hv
  exact C37_lost_forever hv (by decide +kernel) (by unfold NoDelivery; decide +kernel) ops

/-- **C38** is false of the code (2): a client repeating `Commit` after the events were handled and cleaned dispatches them again. -/
theorem C38_recommit_after_clean : ∃ ops1, (∀ op ∈ ops1, op.noCommitOf tx.id) ∧ (commit begun tx 100).2 = true ∧
    (handleEvents cfg 7 20 (fun _ _ => .ok) (commit begun tx 100).1).2 = [ev] ∧
    (handleEvents cfg 7 200 (fun _ _ => .ok) (commit (runOps (commit begun tx 100).1 ops1) tx 100).1).2 = [ev] := by
  refine ⟨[.run cfg 7 20 (fun _ _ => .ok), .clean cfg 7 150], ?_, by decide +kernel, by decide +kernel, ?_⟩
  · intro op h
    simp only [List.mem_cons, List.not_mem_nil, or_false] at h
    rcases h with rfl | rfl <;> trivial
  · decide +kernel

/-- **C38** is false of the code (6): the process dies inside `Commit` after the events and their records were stored and before the row of the transaction is deleted. The repeated `Commit` of a check-back finds the
events and returns nil without deleting the row (`eventbus.go:328-331`); the events are handled and, after the retention time, cleaned; then the row is still there, the check-back finds no event and dispatches them
again. No client calls `Commit` twice, no two operations overlap, and the handler never fails. -/
theorem C38_crash_then_clean : ∃ ops, (∀ op ∈ ops, op.noCommitOf tx.id) ∧ (commit begun tx 4).2 = false ∧
    (handleEvents cfg 7 20 (fun _ _ => .ok) (commit begun tx 4).1).2 = [ev] ∧
    (runOps (commit begun tx 4).1 ops).events = [] ∧ (runOps (commit begun tx 4).1 ops).txs = [tx] ∧
    (handleEvents cfg 7 200 (fun _ _ => .ok) (handleTxs (fun _ => .commit) 7 200 (fun _ => 100) (runOps (commit begun tx 4).1 ops))).2 = [ev] := by
  refine ⟨[.run cfg 7 20 (fun _ _ => .ok), .check (fun _ => .commit) 7 100 (fun _ => 100), .clean cfg 7 150], ?_, by decide +kernel, by decide +kernel, by decide +kernel, by decide +kernel, ?_⟩
  · intro op h
    simp only [List.mem_cons, List.not_mem_nil, or_false] at h
    rcases h with rfl | rfl | rfl <;> trivial
  · decide +kernel

/-- **C38** is false of the code (3): the check-back commits between the look-up and the dispatch of a client's `Commit`, and the events are stored (and delivered) twice. -/
theorem C38_commit_races_checkback : commitLook begun tx = false ∧
    let db1 := handleTxs (fun _ => .commit) 7 71 (fun _ => 100) begun
    (commitRest db1 tx 100).2 = true ∧ (eventsOf (commitRest db1 tx 100).1 tx.id).map EvRow.ev = [ev, ev] ∧
      (handleEvents cfg 7 80 (fun _ _ => .ok) (commitRest db1 tx 100).1).2 = [ev, ev] := by
  refine ⟨by decide +kernel, ?_⟩
  decide +kernel

/-- **C38** is false of the code (4): `Commit` with the context of a transaction that was rolled back dispatches. -/
theorem C38_commit_after_rollback : (rollback begun tx true).2 = true ∧ (commit (rollback begun tx true).1 tx 100).2 = true ∧
    (eventsOf (commit (rollback begun tx true).1 tx 100).1 tx.id).map EvRow.ev = [ev] := by decide +kernel

/-- **C38** is false of the code (5): an error during the check-back's dispatch is only logged (`eventbus.go:640-642`), so `handleTransactions` commits the events without their records. -/
theorem C38_checkback_error_loses : let db1 := handleTxs (fun _ => .commit) 7 71 (fun _ => 2) begun
    (eventsOf db1 tx.id).map EvRow.ev = [ev] ∧ ∀ ops, NoDelivery (runOps db1 ops) 1 := by
  refine ⟨by decide +kernel, ?_⟩
  intro ops
  have hv := valid_apply begun_valid (.check (fun _ => .commit) 7 71 (fun _ => 2))
  exact C37_lost_forever hv (by decide +kernel) (by unfold NoDelivery; decide +kernel) ops

end Ddd.Bus
