import Verif.Props.TxEvents
import Verif.Props.BusTx
import Verif.Props.Atomic
import Verif.Spec.Delivery
/-!
# C92: transactional events from the command to the tables of the bus
-/
set_option linter.unusedVariables false
set_option linter.unusedSimpArgs false
namespace Ddd
open Spec

variable {env : Env} {opts : Opts} {c : Cmd} {h : Heap}

/-- the calls that matter for transactional events -/
def isTxCall : Call → Bool
  | .dispatchBegin .. => true
  | .commit _ => true
  | .busCommit _ => true
  | .busRollback _ => true
  | _ => false

/-- the shapes these calls can have, closed under prefixes; with `outer` also those of a function that wraps a transaction of its own and tells the bus about its end in any case (`Model/Outer.lean`) -/
inductive GenShape (outer : Bool) : Trace → Prop
  | none : GenShape outer []
  | plain (st : Stat) : GenShape outer [.commit st]
  | begun (es : List Event) (st : Stat) : es ≠ [] → GenShape outer [.dispatchBegin es st]
  | undone (es : List Event) (st b : Stat) : es ≠ [] → GenShape outer [.dispatchBegin es st, .busRollback b]
  | tried (es : List Event) (st : Stat) : es ≠ [] → GenShape outer [.dispatchBegin es .ok, .commit st]
  | told (es : List Event) (b : Stat) : es ≠ [] → GenShape outer [.dispatchBegin es .ok, .commit .ok, .busCommit b]
  | early (b : Stat) : outer = true → GenShape outer [.busRollback b]
  | late (es : List Event) (st b : Stat) : outer = true → es ≠ [] → st ≠ .ok → GenShape outer [.dispatchBegin es .ok, .commit st, .busRollback b]

/-- the shapes of a command -/
abbrev TxShape := GenShape false

theorem GenShape.pre {outer : Bool} {t p : Trace} (ht : GenShape outer t) (hp : p <+: t) : GenShape outer p := by
  have two : ∀ (x y : Call), p <+: [x, y] → p = [] ∨ p = [x] ∨ p = [x, y] := by
    intro x y h
    obtain ⟨q, hq⟩ := h
    rcases p with _ | ⟨a, _ | ⟨b, _ | ⟨d, p⟩⟩⟩ <;> simp_all
  have three : ∀ (x y z : Call), p <+: [x, y, z] → p = [] ∨ p = [x] ∨ p = [x, y] ∨ p = [x, y, z] := by
    intro x y z h
    obtain ⟨q, hq⟩ := h
    rcases p with _ | ⟨a, _ | ⟨b, _ | ⟨d, _ | ⟨e, p⟩⟩⟩⟩ <;> simp_all
  cases ht with
  | none => rw [List.prefix_nil.1 hp]; exact .none
  | plain st => rcases List.prefix_cons_iff.1 hp with rfl | ⟨q, rfl, hq⟩
                · exact .none
                · rw [List.prefix_nil.1 hq]; exact .plain st
  | begun es st he => rcases List.prefix_cons_iff.1 hp with rfl | ⟨q, rfl, hq⟩
                      · exact .none
                      · rw [List.prefix_nil.1 hq]; exact .begun es st he
  | undone es st b he =>
    rcases two _ _ hp with rfl | rfl | rfl
    · exact .none
    · exact .begun es st he
    · exact .undone es st b he
  | tried es st he =>
    rcases two _ _ hp with rfl | rfl | rfl
    · exact .none
    · exact .begun es .ok he
    · exact .tried es st he
  | told es b he =>
    rcases three _ _ _ hp with rfl | rfl | rfl | rfl
    · exact .none
    · exact .begun es .ok he
    · exact .tried es .ok he
    · exact .told es b he
  | early b ho => rcases List.prefix_cons_iff.1 hp with rfl | ⟨q, rfl, hq⟩
                  · exact .none
                  · rw [List.prefix_nil.1 hq]; exact .early b ho
  | late es st b ho he hst =>
    rcases three _ _ _ hp with rfl | rfl | rfl | rfl
    · exact .none
    · exact .begun es .ok he
    · exact .tried es st he
    · exact .late es st b ho he hst

theorem filter_none {t : Trace} (h : ∀ x ∈ t, isTxCall x = false) : t.filter isTxCall = [] := by
  rw [List.filter_eq_nil_iff]; intro x hx; simp [h x hx]

theorem txShape_run (hw : opts.withTransaction = true) : TxShape ((run env opts c h).2.trace.filter isTxCall) := by
  by_cases hemp : (run env opts c h).2.trace.filter isTxCall = []
  · rw [hemp]; exact .none
  have hB : Nonempty (BodyOf env opts c h) := by
    rcases begun_cases env opts c h with ⟨h1, h2⟩ | ⟨keys, body, tail, un, posts, rt, b, hk, hn, hw, hbody, ht, hr, hpp, hT'⟩
    · exfalso
      obtain ⟨x, hx⟩ := List.exists_mem_of_ne_nil _ hemp
      obtain ⟨hx, hxt⟩ := List.mem_filter.1 hx
      rcases run_anatomy env opts c h with ⟨keys, hk, an⟩ | ⟨h1', h0⟩
      · generalize (run env opts c h).2.trace = T at an hx h1
        generalize (run env opts c h).1 = R at an
        cases an with
        | early _ _ h' hres => rcases h'.noBody _ hx with ⟨_, _, rfl⟩ | ⟨_, _, rfl⟩ | ⟨_, _, rfl⟩ <;> simp [isTxCall] at hxt
        | plain body un posts _ b hn hw' hbody hr hpp =>
          rw [show (c.opts opts).withTransaction = true from hw] at hw'; simp at hw'
        | tx body tail un posts rt _ b hn hw hbody ht hr hpp => exact h1 (by simp)
      · rw [h0] at hx; simp at hx
    · obtain ⟨d, rfl⟩ := doStage_body _ _ hbody
      exact run_body ⟨.mainStart, by rw [hT']; simp, trivial⟩
  obtain ⟨B⟩ := hB
  have hbody := B.d.isBody
  obtain ⟨h1, h2, h3, h4, h5, h6⟩ := B.noEv
  have key : ∀ x, x.IsBody opts.dryRun → isHandover x = false → isTxCall x = false := by
    intro x; cases x <;> simp [Call.IsBody, isHandover, isTxCall]
  have key2 : ∀ x, isEventCall x = false → isHandover x = false := by
    intro x; cases x <;> simp [isEventCall, isHandover]
  have fpre : B.pre.filter isTxCall = [] := filter_none fun x hx => by rcases B.hpre x hx with ⟨_, rfl⟩ | rfl <;> rfl
  have fpost : B.post.filter isTxCall = [] := filter_none fun x hx => by rcases B.hpost x hx with ⟨_, _, rfl⟩ | ⟨_, _, rfl⟩ <;> rfl
  have ftm : B.d.tm.filter isTxCall = [] := filter_none fun x hx => key x (hbody x (by simp [hx])) (key2 x (h2 x hx))
  have fts : B.d.tsave.filter isTxCall = [] := filter_none fun x hx => key x (hbody x (by simp [hx])) (key2 x (h3 x hx))
  have ftp : B.d.tpers.filter isTxCall = [] := filter_none fun x hx => key x (hbody x (by simp [hx])) (h4 x hx)
  have heq : (run env opts c h).2.trace.filter isTxCall = B.d.tsend.filter isTxCall ++ B.tail.filter isTxCall := by
    rw [B.eq]
    simp [List.filter_append, List.filter_cons, fpre, fpost, ftm, fts, ftp, isTxCall]
  rw [heq]
  have ht := B.htx hw
  have hcl := B.d.clean
  generalize (doStage env (c.opts opts) c.main (atMain (c.opts opts) B.keys (.fresh h))).1 = o at ht hcl
  generalize hpd : busPending (c.opts opts) (doStage env (c.opts opts) c.main (atMain (c.opts opts) B.keys (.fresh h))).2 = pend at ht
  -- what was handed over
  have hsend : (B.d.tsend.filter isTxCall = [] ∧ pend = false) ∨ ∃ es st, es ≠ [] ∧ B.d.tsend.filter isTxCall = [.dispatchBegin es st] ∧ Call.dispatchBegin es st ∈ B.d.tsend := by
    unfold busPending at hpd
    have ne : ∀ es : List Event, es.any Event.tx = true → es.filter Event.tx ≠ [] := by
      intro es he h0
      obtain ⟨e, hm, ht⟩ := List.any_eq_true.1 he
      have : e ∈ es.filter Event.tx := List.mem_filter.2 ⟨hm, ht⟩
      rw [h0] at this; simp at this
    rcases B.d.send with ⟨e1, e2⟩ | ⟨es, st, b, hne, hs, e2⟩
    · rw [e2] at hpd
      left; exact ⟨by rw [e1]; rfl, by rw [← hpd]; simp [atMain, St.fresh]⟩
    · rw [e2] at hpd
      generalize B.d.tsend = ts at hs
      cases hs with
      | beginFail st b _ _ _ ha => exact .inr ⟨_, st, ne _ ha, rfl, by simp⟩
      | onlyTx _ _ _ _ ha => exact .inr ⟨_, .ok, ne _ ha, rfl, by simp⟩
      | both _ _ _ _ _ ha => exact .inr ⟨_, .ok, ne _ ha, rfl, by simp⟩
      | _ => exact .inl ⟨rfl, by rw [← hpd]; simp [atMain, St.fresh]⟩
  generalize B.rt = rt at ht
  rcases hsend with ⟨e1, rfl⟩ | ⟨es, st, hne, e1, hmem⟩
  · rw [e1]
    generalize B.tail = q at ht
    cases ht <;> first | (simp at *; done) | simp [List.filter_cons, isTxCall, GenShape.none, GenShape.plain]
  · have hok : (∃ r, o = some r ∧ r.clean) → st = .ok := by
      rintro ⟨r, hr, hc⟩
      have := (hcl r hr hc).2.2 _ (show Call.dispatchBegin es st ∈ _ by simp [hmem])
      simpa [Call.Good] using this
    rw [e1]
    generalize B.tail = q at ht
    clear heq e1 fpost hpd
    cases ht with
    | panicked => exact .begun es st hne
    | undone => exact .begun es st hne
    | undonePanic => exact .begun es st hne
    | undoneBus r st' b => exact .undone es st b hne
    | undoneBusPanic => exact .undone es st .panic hne
    | commitPanic r st' hc => rw [hok ⟨r, rfl, hc⟩]; exact .tried es .panic hne
    | commitErr r e h' hc => rw [hok ⟨r, rfl, hc⟩]; exact .tried es .err hne
    | committed r hc => rw [hok ⟨r, rfl, hc⟩]; exact .tried es .ok hne
    | committedBus r b hc => rw [hok ⟨r, rfl, hc⟩]; exact .told es b hne
    | committedBusPanic r st' hc => rw [hok ⟨r, rfl, hc⟩]; exact .told es .panic hne

/-- the same for every crash point -/
theorem txShape_prefix (hw : opts.withTransaction = true) {P : Trace} (hP : P <+: (run env opts c h).2.trace) : TxShape (P.filter isTxCall) :=
  (txShape_run hw).pre (hP.filter _)

/-! ## what operations do to the transaction -/

section
open Bus

/-- the transaction `tid` is as before -/
structure Keep (tid : Nat) (a b : DB) : Prop where
  ev : storedOf b tid = storedOf a tid
  row : ∀ t, t.id = tid → (t ∈ b.txs ↔ t ∈ a.txs)
  next : a.nextTx ≤ b.nextTx

theorem Keep.refl (tid : Nat) (a : DB) : Keep tid a a := ⟨rfl, fun _ _ => Iff.rfl, Nat.le_refl _⟩

theorem keep_of_frame {tid : Nat} {a b : DB} (h : Frame tid a b) : Keep tid a b := ⟨h.ev, h.row, h.next.ge⟩

theorem frame_commit {tid : Nat} {db : DB} {t : TxRow} (hne : t.id ≠ tid) (n : Nat) : Frame tid db (Bus.commit db t n).1 := by
  rcases commit_cases db t n with h' | ⟨d, hd, h' | h'⟩
  · rw [h']; exact .refl _ _
  · rw [h']; exact frame_added hne hd
  · rw [h']; exact (frame_added hne hd).trans (frame_deleteTx hne _)

/-- nobody but a check-back or a cleaning touches the transaction. -/
theorem keep_apply {fate : Bool} {w : BusWorld} {o : Bus.Op} (hv : Valid w.db) {tx : TxRow} (hr : w.row = some tx) (h0 : 0 < tx.id) (hid : tx.id < w.db.nextTx) (ho : Others fate w o)
    (hk : ∀ ask svc now ns, o ≠ .check ask svc now ns) (hc : ∀ c svc now, o ≠ .clean c svc now) : Keep tx.id w.db (o.apply w.db) := by
  have ho := ho tx hr
  cases o with
  | dispatch es n => exact keep_of_frame (frame_added (by omega) (added_dispatch w.db 0 es n))
  | begin svc now timeout es ok =>
    simp only [Bus.Op.apply, dispatchBegin]
    split
    · exact .refl _ _
    · split
      · exact .refl _ _
      · refine ⟨rfl, ?_, by simp⟩
        intro t ht
        simp only [List.mem_append, List.mem_singleton]
        constructor
        · rintro (h | rfl)
          · exact h
          · simp only at ht; omega
        · exact .inl
  | commit t n =>
    simp only [Bus.Op.apply]
    split
    · exact keep_of_frame (frame_commit ho n)
    · exact .refl _ _
  | rollback t ok =>
    simp only [Bus.Op.apply, Bus.rollback]
    split
    · split
      · exact keep_of_frame (frame_deleteTx ho _)
      · exact .refl _ _
    · exact .refl _ _
  | check ask svc now ns => exact absurd rfl (hk ask svc now ns)
  | register svc =>
    simp only [Bus.Op.apply, register]
    split
    · exact .refl _ _
    · exact ⟨rfl, fun _ _ => Iff.rfl, Nat.le_refl _⟩
  | run c svc now ans =>
    have hs := same_handleEvents (c := c) (svc := svc) (now := now) (ans := ans) hv.recIds
    refine ⟨?_, fun t _ => by simp only [Bus.Op.apply]; rw [hs.txs], by simp only [Bus.Op.apply]; rw [hs.nextTx]⟩
    simp only [Bus.Op.apply, storedOf]; rw [hs.events]
  | clean c svc now => exact absurd rfl (hc c svc now)

/-- one delivery record for the event and the service, to be delivered -/
theorem one_record {db : DB} (hv : Valid db) {s i : Nat} (h : Pending db s i) : (db.recs.countP fun r => decide (r.service = s ∧ r.eventId = i)) = 1 := by
  obtain ⟨r, hr, h1, h2, -⟩ := h
  have h3 : (db.recs.map fun r => (r.service, r.eventId)).count (s, i) = 1 :=
    List.count_eq_one_of_mem hv.recKeys (List.mem_map.2 ⟨r, hr, by rw [h1, h2]⟩)
  rw [List.count, List.countP_map] at h3
  rw [← h3]
  apply List.countP_congr
  intro x _
  simp

theorem storesAll_of {a b : DB} (hvb : Valid b) {tx : TxRow} (h1 : storedOf a tx.id = []) (h2 : (storedOf b tx.id).map EvRow.ev = tx.events)
    (h3 : ∀ p ∈ storedOf b tx.id, ∀ v ∈ a.services, Pending b v p.id) : StoresAll tx (a, b) :=
  ⟨h1, h2, fun p hp v hv => ⟨one_record hvb (h3 p hp v hv), h3 p hp v hv⟩⟩

/-- a client's `Commit` that succeeds while nothing is stored -/
theorem commit_stores {db db' : DB} (hv : Valid db) {tx : TxRow} (hid : tx.id < db.nextTx) (hopen : storedOf db tx.id = []) {n : Nat} (h : Bus.commit db tx n = (db', true)) :
    StoresAll tx (db, db') ∧ (∀ t ∈ db'.txs, t.id ≠ tx.id) ∧ Valid db' ∧ db'.nextTx = db.nextTx := by
  have hv' : Valid db' := by
    have := valid_apply hv (.commit tx n)
    simp only [Bus.Op.apply, hid, if_true, h] at this; exact this
  obtain ⟨ps, h1, h2, h3, h4, h5⟩ := C38_commit_delivers hv hid hopen h
  refine ⟨storesAll_of hv' hopen ?_ ?_, ?_, hv', ?_⟩
  · show (eventsOf db' tx.id).map EvRow.ev = _
    rw [h2]; exact h1.2.1
  · intro p hp s hs
    have hp : p ∈ ps := by rw [← h2]; exact hp
    obtain ⟨rs, g1, g2, g3⟩ := h3
    have hpos : 0 < rs.countP fun r => decide (r.service = s ∧ r.eventId = p.id) := by rw [g3 s hs p hp]; exact Nat.one_pos
    obtain ⟨r, hr, hr2⟩ := List.countP_pos_iff.1 hpos
    simp only [decide_eq_true_eq] at hr2
    obtain ⟨s', _, p', _, hfr⟩ := g2 r hr
    exact ⟨r, by rw [g1]; simp [hr], hr2.1, hr2.2, hfr.2.2.1⟩
  · intro t ht
    rw [h5] at ht
    simpa using (List.mem_filter.1 ht).2
  · rcases commit_cases db tx n with h' | ⟨d, hd, h' | h'⟩ <;> rw [h] at h' <;> simp only at h'
    · rw [h']
    · rw [h', hd.nextTx]
    · rw [h']; exact hd.nextTx

theorem commit_little (db : DB) (tx : TxRow) {n : Nat} (hn : n ≤ 1) : (Bus.commit db tx n).1 = db := by
  match n, hn with
  | 0, _ => rfl
  | 1, _ =>
    simp only [Bus.commit, commitRest, Bus.dispatch]
    split
    · rfl
    · simp

theorem commit_again {db : DB} {tx : TxRow} (h : storedOf db tx.id ≠ []) (n : Nat) : (Bus.commit db tx n).1 = db := by
  cases n with
  | zero => rfl
  | succ n => rw [C38_repeat_is_noop h]

/-- the check-back of an open transaction: nothing, or what the checker says. -/
theorem check_effect {ask : DEv → TxAns} {svc now : Nat} {ns : Nat → Nat} {db : DB} (hv : Valid db) {tx : TxRow} (htx : tx ∈ db.txs) (hopen : storedOf db tx.id = []) {e : DEv} {es : List DEv}
    (he : tx.events = e :: es) (hn : ∀ i, ns i ≤ 1 ∨ 4 + db.services.length ≤ ns i) :
    Keep tx.id db (handleTxs ask svc now ns db) ∨
    (ask e = .rollback ∧ (∀ t ∈ (handleTxs ask svc now ns db).txs, t.id ≠ tx.id) ∧ storedOf (handleTxs ask svc now ns db) tx.id = []) ∨
    (ask e = .commit ∧ (∀ t ∈ (handleTxs ask svc now ns db).txs, t.id ≠ tx.id) ∧ StoresAll tx (db, handleTxs ask svc now ns db)) := by
  by_cases hdue : tx.service = svc ∧ tx.due < now
  swap
  · have f : Frame tx.id db (handleTxs ask svc now ns db) := by
      refine frame_checks _ _ fun t ht hi => ?_
      obtain ⟨h1, h2⟩ := List.mem_filter.1 ht
      have : t = tx := by
        have := hv.txIds
        exact List.inj_on_of_nodup_map this h1 htx hi
      subst this
      simp at h2
      exact hdue h2
    exact .inl (keep_of_frame f)
  · have hvh := valid_apply hv (.check ask svc now ns)
    simp only [Bus.Op.apply] at hvh
    have hm : tx ∈ db.txs.filter fun t => t.service == svc && decide (t.due < now) := by simp [htx, hdue.1, hdue.2]
    have hnd : ((db.txs.filter fun t => t.service == svc && decide (t.due < now)).map TxRow.id).Nodup := hv.txIds.sublist (List.filter_sublist.map _)
    have hlt : ∀ t ∈ db.txs.filter fun t => t.service == svc && decide (t.due < now), t.id < db.nextTx := fun t ht => hv.txFresh t (List.mem_of_mem_filter ht)
    unfold handleTxs at hvh ⊢
    obtain ⟨l1, l2, hl⟩ := List.append_of_mem hm
    rw [hl] at hnd hlt hvh ⊢
    rw [List.map_append, List.map_cons, List.nodup_append, List.nodup_cons] at hnd
    obtain ⟨-, ⟨hn2, -⟩, hn1⟩ := hnd
    rw [List.foldl_append, List.foldl_cons] at hvh ⊢
    have f1 : Frame tx.id db (l1.foldl (fun d t => checkTx ask d t (ns t.id)) db) :=
      frame_checks l1 db fun t ht hi => hn1 t.id (List.mem_map_of_mem ht) tx.id (by simp) hi
    have v1 : Valid (l1.foldl (fun d t => checkTx ask d t (ns t.id)) db) := valid_checks _ _ (fun t ht => hlt t (by simp [ht])) hv
    generalize l1.foldl (fun d t => checkTx ask d t (ns t.id)) db = d at f1 v1 hvh ⊢
    have f2 : Frame tx.id (checkTx ask d tx (ns tx.id)) (l2.foldl (fun d t => checkTx ask d t (ns t.id)) (checkTx ask d tx (ns tx.id))) :=
      frame_checks l2 _ fun t ht hi => hn2 (hi ▸ List.mem_map_of_mem ht)
    rcases hn tx.id with hsmall | hbig
    · -- not enough statements: only a rollback can happen
      have hcases : checkTx ask d tx (ns tx.id) = d ∨ (ask e = .rollback ∧ checkTx ask d tx (ns tx.id) = deleteTx d tx.id) := by
        unfold checkTx
        rw [he]
        simp only
        cases ha : ask e with
        | unknown => exact .inl rfl
        | commit => exact .inl (commit_little d tx hsmall)
        | rollback =>
          simp only [Bus.rollback]
          split
          · exact .inr ⟨trivial, rfl⟩
          · exact .inl rfl
      rcases hcases with h | ⟨ha, h⟩
      · rw [h] at f2 ⊢
        exact .inl (keep_of_frame (f1.trans f2))
      · rw [h] at f2 ⊢
        refine .inr (.inl ⟨ha, ?_, ?_⟩)
        · intro t ht hi
          have := (f2.row t hi).1 ht
          have := (List.mem_filter.1 this).2
          simp [hi] at this
        · exact (f2.ev.trans (show eventsOf d tx.id = _ from f1.ev)).trans hopen
    · have hcb := CheckedBack.frame f2 (checkTx_checkedBack (ask := ask) v1 ((f1.row tx rfl).2 htx) (f1.ev.trans hopen) he (n := ns tx.id) (by rw [f1.services]; exact hbig))
      cases ha : ask e with
      | unknown =>
        have : checkTx ask d tx (ns tx.id) = d := by unfold checkTx; rw [he]; simp [ha]
        rw [this] at f2 ⊢
        exact .inl (keep_of_frame (f1.trans f2))
      | rollback => rw [ha] at hcb; exact .inr (.inl ⟨rfl, hcb.1, hcb.2⟩)
      | commit =>
        rw [ha] at hcb
        refine .inr (.inr ⟨rfl, hcb.1, storesAll_of hvh hopen hcb.2.1 ?_⟩)
        intro p hp s hs
        exact hcb.2.2 p hp s (by rw [f1.services]; exact hs)

/-- a check-back does not concern a transaction without row. -/
theorem check_closed {ask : DEv → TxAns} {svc now : Nat} {ns : Nat → Nat} {db : DB} {tid : Nat} (h : ∀ t ∈ db.txs, t.id ≠ tid) : Keep tid db (handleTxs ask svc now ns db) :=
  keep_of_frame (frame_checks _ _ fun t ht => h t (List.mem_of_mem_filter ht))

theorem nextTx_mono {db : DB} (hv : Valid db) (o : Bus.Op) : db.nextTx ≤ (o.apply db).nextTx := by
  obtain ⟨tid, h1, h2⟩ : ∃ tid, db.nextTx < tid ∧ o.noCommitOf tid := by
    cases o with
    | commit t n => exact ⟨db.nextTx + t.id + 1, by omega, by simp only [Bus.Op.noCommitOf]; omega⟩
    | _ => exact ⟨db.nextTx + 1, by omega, trivial⟩
  refine (quiet_apply (tid := tid) (by omega) hv h2 ?_).next
  intro ask svc now ns _ t ht hi
  have := hv.txFresh t ht
  omega


/-! ## the invariant -/

/-- what can have become of the transaction `tx` -/
inductive Standing (fate : Bool) (tx : TxRow) (H : List (DB × DB)) (w : BusWorld) : Prop
  | opened : tx ∈ w.db.txs → storedOf w.db tx.id = [] → NeverStored tx.id H → Standing fate tx H w
  | gone : fate = false → (∀ t ∈ w.db.txs, t.id ≠ tx.id) → storedOf w.db tx.id = [] → NeverStored tx.id H → Standing fate tx H w
  | delivered : fate = true → (∃ st, Call.commit st ∈ w.done) → (∀ t ∈ w.db.txs, t.id ≠ tx.id) → StoredOnce tx H →
      (w.alive = true → storedOf w.db tx.id ≠ []) → Standing fate tx H w

structure Journey (conv : Event → DEv) (svc : Nat) (fate : Bool) (H : List (DB × DB)) (w : BusWorld) : Prop where
  valid : Valid w.db
  noRow : w.row = none → w.held = false ∧ ∀ s ∈ H, ∀ e, e ∈ s.1.events ∨ e ∈ s.2.events → e.transId < w.db.nextTx
  pos : ∀ tx, w.row = some tx → 0 < tx.id ∧ tx.id < w.db.nextTx
  uniq : ∀ tx, w.row = some tx → ∀ t ∈ w.db.txs, t.id = tx.id → t = tx
  events : ∀ tx, w.row = some tx → tx.service = svc ∧ ∃ es st, Call.dispatchBegin es st ∈ w.done ∧ es ≠ [] ∧ tx.events = es.map conv ∧ (st = .ok → w.held = true)
  begun : ∀ es, Call.dispatchBegin es .ok ∈ w.done → w.row.isSome
  standing : ∀ tx, w.row = some tx → Standing fate tx H w

theorem never_snoc {tid : Nat} {H : List (DB × DB)} {a b : DB} (h : NeverStored tid H) (h1 : storedOf a tid = []) (h2 : storedOf b tid = []) : NeverStored tid (H ++ [(a, b)]) := by
  intro s hs
  rcases List.mem_append.1 hs with hs | hs
  · exact h s hs
  · simp only [List.mem_singleton] at hs; subst hs; exact ⟨h1, h2⟩

theorem once_snoc {tx : TxRow} {H : List (DB × DB)} {a b : DB} (h : StoredOnce tx H) (h1 : StoresNothing tx.id (a, b)) : StoredOnce tx (H ++ [(a, b)]) := by
  obtain ⟨H1, s, H2, rfl, g1, g2, g3⟩ := h
  refine ⟨H1, s, H2 ++ [(a, b)], by simp, g1, g2, ?_⟩
  intro s hs
  rcases List.mem_append.1 hs with hs | hs
  · exact g3 s hs
  · simp only [List.mem_singleton] at hs; subst hs; exact h1

theorem once_now {tx : TxRow} {H : List (DB × DB)} {a b : DB} (h : NeverStored tx.id H) (h1 : StoresAll tx (a, b)) : StoredOnce tx (H ++ [(a, b)]) :=
  ⟨H, (a, b), [], rfl, fun s hs => by rw [StoresNothing, (h s hs).1, (h s hs).2], h1, by simp⟩

/-- a step that keeps the transaction keeps its standing. -/
theorem Standing.keep {fate : Bool} {tx : TxRow} {H : List (DB × DB)} {w w' : BusWorld} (h : Standing fate tx H w) (hk : Keep tx.id w.db w'.db)
    (hd : ∀ x ∈ w.done, x ∈ w'.done) (ha : w'.alive = true → w.alive = true) : Standing fate tx (H ++ [(w.db, w'.db)]) w' := by
  cases h with
  | opened h1 h2 h3 => exact .opened ((hk.row tx rfl).2 h1) (hk.ev.trans h2) (never_snoc h3 h2 (hk.ev.trans h2))
  | gone h0 h1 h2 h3 => exact .gone h0 (fun t ht hi => h1 t ((hk.row t hi).1 ht) hi) (hk.ev.trans h2) (never_snoc h3 h2 (hk.ev.trans h2))
  | delivered h0 hc h1 h2 h3 =>
    obtain ⟨st, hc⟩ := hc
    refine .delivered h0 ⟨st, hd _ hc⟩ (fun t ht hi => h1 t ((hk.row t hi).1 ht) hi) (once_snoc h2 ?_) ?_
    · rw [StoresNothing, hk.ev]
    · intro h4; rw [hk.ev]; exact h3 (ha h4)

theorem begin_facts {db db' : DB} {svc now timeout : Nat} {es : List DEv} {tx : TxRow} (hv : Valid db) (h : dispatchBegin db svc now timeout es true = (db', some tx)) :
    tx.id = db.nextTx ∧ db'.nextTx = db.nextTx + 1 ∧ db'.events = db.events ∧ db'.txs = db.txs ++ [tx] ∧ tx.events = es ∧ tx.service = svc ∧ Valid db' := by
  have hv' : Valid db' := by
    have := valid_apply hv (.begin svc now timeout es true)
    simp only [Bus.Op.apply, h] at this; exact this
  unfold dispatchBegin at h
  split at h
  · simp at h
  · simp only [Bool.not_true, Bool.false_eq_true, if_false, Prod.mk.injEq, Option.some.injEq] at h
    obtain ⟨rfl, rfl⟩ := h
    exact ⟨rfl, rfl, rfl, rfl, rfl, rfl, hv'⟩

theorem stored_fresh {db : DB} {tid : Nat} (h : ∀ e ∈ db.events, e.transId < tid) : storedOf db tid = [] := by
  rw [storedOf, List.filter_eq_nil_iff]
  intro e he
  have := h e he
  simp only [decide_eq_true_eq]; omega

theorem shape_begin {outer : Bool} {P : Trace} {es : List Event} {st : Stat} (h : GenShape outer ((P ++ [Call.dispatchBegin es st]).filter isTxCall)) : P.filter isTxCall = [] ∧ es ≠ [] := by
  rw [List.filter_append] at h
  simp only [List.filter_cons, isTxCall, if_true, List.filter_nil] at h
  generalize hq : P.filter isTxCall ++ [Call.dispatchBegin es st] = q at h
  generalize P.filter isTxCall = p at hq
  rcases p with _ | ⟨a, _ | ⟨b, _ | ⟨d, p⟩⟩⟩ <;> cases h <;> simp_all

theorem shape_commit {outer : Bool} {P : Trace} {st : Stat} (h : GenShape outer ((P ++ [Call.busCommit st]).filter isTxCall)) : ∃ es, P.filter isTxCall = [.dispatchBegin es .ok, .commit .ok] := by
  rw [List.filter_append] at h
  simp only [List.filter_cons, isTxCall, if_true, List.filter_nil] at h
  generalize hq : P.filter isTxCall ++ [Call.busCommit st] = q at h
  generalize P.filter isTxCall = p at hq
  rcases p with _ | ⟨a, _ | ⟨b, _ | ⟨d, p⟩⟩⟩ <;> cases h <;> simp_all

theorem shape_rollback {P : Trace} {st : Stat} (h : TxShape ((P ++ [Call.busRollback st]).filter isTxCall)) : ∃ es st', Call.dispatchBegin es st' ∈ P := by
  rw [List.filter_append] at h
  simp only [List.filter_cons, isTxCall, if_true, List.filter_nil] at h
  suffices hx : ∃ es st', Call.dispatchBegin es st' ∈ P.filter isTxCall by
    obtain ⟨es, st', hx⟩ := hx
    exact ⟨es, st', (List.mem_filter.1 hx).1⟩
  generalize hq : P.filter isTxCall ++ [Call.busRollback st] = q at h
  generalize P.filter isTxCall = p at hq
  rcases p with _ | ⟨a, _ | ⟨b, _ | ⟨d, p⟩⟩⟩ <;> cases h <;> simp_all

theorem not_begun {P : Trace} (h : P.filter isTxCall = []) (es : List Event) (st : Stat) : Call.dispatchBegin es st ∉ P := by
  intro hm
  have : Call.dispatchBegin es st ∈ P.filter isTxCall := List.mem_filter.2 ⟨hm, rfl⟩
  rw [h] at this; simp at this

theorem journey_start {conv : Event → DEv} {svc : Nat} {fate : Bool} {db : DB} (hv : Valid db) : Journey conv svc fate [] (BusWorld.before db) where
  valid := hv
  noRow := fun _ => ⟨rfl, by simp⟩
  pos := fun tx h => by simp [BusWorld.before] at h
  uniq := fun tx h => by simp [BusWorld.before] at h
  events := fun tx h => by simp [BusWorld.before] at h
  begun := fun es h => by simp [BusWorld.before] at h
  standing := fun tx h => by simp [BusWorld.before] at h

/-- a step that does not store a row. -/
theorem Journey.step {conv : Event → DEv} {svc : Nat} {fate : Bool} {H : List (DB × DB)} {w w' : BusWorld} (J : Journey conv svc fate H w) (hv : Valid w'.db)
    (hrow : w'.row = w.row) (hheld : w'.held = w.held) (hd : ∀ x ∈ w.done, x ∈ w'.done) (hb : ∀ es, Call.dispatchBegin es .ok ∈ w'.done → Call.dispatchBegin es .ok ∈ w.done)
    (hn : w.db.nextTx ≤ w'.db.nextTx)
    (hu : ∀ tx, w.row = some tx → ∀ t ∈ w'.db.txs, t.id = tx.id → t ∈ w.db.txs)
    (hs : ∀ tx, w.row = some tx → Standing fate tx (H ++ [(w.db, w'.db)]) w') : Journey conv svc fate (H ++ [(w.db, w'.db)]) w' where
  valid := hv
  noRow := by
    intro h
    rw [hrow] at h
    obtain ⟨h1, h2⟩ := J.noRow h
    refine ⟨hheld.trans h1, ?_⟩
    intro s hm e he
    rcases List.mem_append.1 hm with hm | hm
    · exact lt_of_lt_of_le (h2 s hm e he) hn
    · simp only [List.mem_singleton] at hm
      subst hm
      rcases he with he | he
      · exact lt_of_lt_of_le (J.valid.evTx e he) hn
      · exact hv.evTx e he
  pos := by
    intro tx h
    rw [hrow] at h
    exact ⟨(J.pos tx h).1, lt_of_lt_of_le (J.pos tx h).2 hn⟩
  uniq := by
    intro tx h t ht hi
    rw [hrow] at h
    exact J.uniq tx h t (hu tx h t ht hi) hi
  events := by
    intro tx h
    rw [hrow] at h
    obtain ⟨h1, es, st, h2, h3, h4, h5⟩ := J.events tx h
    exact ⟨h1, es, st, hd _ h2, h3, h4, fun h => hheld.trans (h5 h)⟩
  begun := by
    intro es h
    rw [hrow]; exact J.begun es (hb es h)
  standing := by
    intro tx h
    rw [hrow] at h
    exact hs tx h

/-- the invariant is kept by `DispatchBegin` storing the row. -/
theorem Journey.begin_ {outer : Bool} {conv : Event → DEv} {svc timeout now : Nat} {fate : Bool} {H : List (DB × DB)} {w : BusWorld} (J : Journey conv svc fate H w) {es : List Event} {st : Stat}
    (hsh : GenShape outer ((w.done ++ [Call.dispatchBegin es st]).filter isTxCall)) {db' : DB} {tx : TxRow} (h : dispatchBegin w.db svc now timeout (es.map conv) true = (db', some tx))
    {held : Bool} (hh : st = .ok → held = true) :
    Journey conv svc fate (H ++ [(w.db, db')]) ⟨w.done ++ [Call.dispatchBegin es st], db', some tx, held, w.alive⟩ := by
  obtain ⟨hnb, hne⟩ := shape_begin hsh
  have hrow : w.row = none := by
    cases hr : w.row with
    | none => rfl
    | some t =>
      obtain ⟨-, es', st', h2, -⟩ := J.events t hr
      exact absurd h2 (not_begun hnb _ _)
  obtain ⟨hheld, hfr⟩ := J.noRow hrow
  obtain ⟨b1, b2, b3, b4, b5, b6, b7⟩ := begin_facts J.valid h
  have hfresh : storedOf w.db tx.id = [] := stored_fresh (by rw [b1]; exact J.valid.evTx)
  have hfresh' : storedOf db' tx.id = [] := by rw [storedOf, b3]; exact hfresh
  refine ⟨b7, by simp, ?_, ?_, ?_, by simp, ?_⟩
  · rintro t ht
    simp only [Option.some.injEq] at ht
    subst ht
    have := J.valid.txPos
    simp only; omega
  · rintro t ht u hu hi
    simp only [Option.some.injEq] at ht
    subst ht
    simp only [b4, List.mem_append, List.mem_singleton] at hu
    rcases hu with hu | hu
    · have := J.valid.txFresh u hu
      omega
    · exact hu
  · rintro t ht
    simp only [Option.some.injEq] at ht
    subst ht
    exact ⟨b6, es, st, by simp, hne, b5, hh⟩
  · rintro t ht
    simp only [Option.some.injEq] at ht
    subst ht
    refine .opened (by simp [b4]) hfresh' (never_snoc ?_ hfresh hfresh')
    intro s hs
    exact ⟨stored_fresh fun e he => by rw [b1]; exact hfr s hs e (.inl he), stored_fresh fun e he => by rw [b1]; exact hfr s hs e (.inr he)⟩

theorem journey_call {outer : Bool} {conv : Event → DEv} {svc timeout : Nat} {fate : Bool} {H : List (DB × DB)} {w w' : BusWorld} {x : Call} (J : Journey conv svc fate H w) (ha : w.alive = true)
    (he : BusEffect conv svc timeout w x w') (hsh : GenShape outer ((w.done ++ [x]).filter isTxCall)) (hA : Call.commit .ok ∈ w.done → fate = true)
    (hB : fate = true → ∀ b, Call.busRollback b ∉ w.done ++ [x]) : Journey conv svc fate (H ++ [(w.db, w'.db)]) { w' with done := w.done ++ [x] } := by
  have same : (∀ es, x ≠ .dispatchBegin es .ok) → Journey conv svc fate (H ++ [(w.db, w.db)]) { w with done := w.done ++ [x] } := by
    intro hx
    refine J.step (w' := { w with done := w.done ++ [x] }) J.valid rfl rfl (fun y hy => by simp [hy]) ?_ (Nat.le_refl _) (fun _ _ _ h _ => h) ?_
    · intro es hm
      simp only [List.mem_append, List.mem_singleton] at hm
      rcases hm with hm | hm
      · exact hm
      · exact absurd hm.symm (hx es)
    · intro tx hr
      exact (J.standing tx hr).keep (w' := { w with done := w.done ++ [x] }) (.refl _ _) (fun y hy => by simp [hy]) id
  -- a call of the bus' Commit or Rollback
  have chg : ∀ (tx : TxRow) (db' : DB), w.row = some tx → (∀ es, x ≠ .dispatchBegin es .ok) → Valid db' → w.db.nextTx ≤ db'.nextTx →
      (∀ t ∈ db'.txs, t.id = tx.id → t ∈ w.db.txs) → Standing fate tx (H ++ [(w.db, db')]) { w with db := db', done := w.done ++ [x] } →
      Journey conv svc fate (H ++ [(w.db, db')]) { w with db := db', done := w.done ++ [x] } := by
    intro tx db' hr hx hv hn hu hs
    refine J.step (w' := { w with db := db', done := w.done ++ [x] }) hv rfl rfl (fun y hy => by simp [hy]) ?_ hn ?_ ?_
    · intro es hm
      simp only [List.mem_append, List.mem_singleton] at hm
      rcases hm with hm | hm
      · exact hm
      · exact absurd hm.symm (hx es)
    · intro t ht
      rw [hr] at ht; cases ht; exact hu
    · intro t ht
      rw [hr] at ht; cases ht; exact hs
  -- Commit
  have com : ∀ (tx : TxRow) (st : Stat) (n : Nat), x = .busCommit st → w.row = some tx → ((Bus.commit w.db tx n).2 = true ∨ n ≤ 1 ∨ 4 + w.db.services.length ≤ n) →
      Journey conv svc fate (H ++ [(w.db, (Bus.commit w.db tx n).1)]) { w with db := (Bus.commit w.db tx n).1, done := w.done ++ [x] } := by
    rintro tx st n rfl hr hn
    obtain ⟨es0, hf⟩ := shape_commit hsh
    have hcm : Call.commit .ok ∈ w.done := (List.mem_filter.1 (show _ ∈ w.done.filter isTxCall by rw [hf]; simp)).1
    have hfate := hA hcm
    have hnop : (Bus.commit w.db tx n).1 = w.db → Journey conv svc fate (H ++ [(w.db, (Bus.commit w.db tx n).1)]) { w with db := (Bus.commit w.db tx n).1, done := w.done ++ [.busCommit st] } := by
      intro h; rw [h]; exact same (by simp)
    cases J.standing tx hr with
    | gone h0 => rw [h0] at hfate; simp at hfate
    | delivered h0 hc h1 h2 h3 => exact hnop (commit_again (h3 ha) n)
    | opened h1 h2 h3 =>
      have hgo : (Bus.commit w.db tx n).2 = true → Journey conv svc fate (H ++ [(w.db, (Bus.commit w.db tx n).1)]) { w with db := (Bus.commit w.db tx n).1, done := w.done ++ [.busCommit st] } := by
        intro h
        obtain ⟨g1, g2, g3, g4⟩ := commit_stores J.valid (J.pos tx hr).2 h2 (n := n) (db' := (Bus.commit w.db tx n).1) (by rw [← h])
        refine chg tx _ hr (by simp) g3 g4.ge (fun t ht hi => absurd hi (g2 t ht)) (.delivered hfate ⟨.ok, by simp [hcm]⟩ g2 (once_now h3 g1) ?_)
        intro _ h0
        obtain ⟨-, es, st', -, hne, hev, -⟩ := J.events tx hr
        have := g1.2.1
        simp only at this h0
        rw [h0, hev] at this
        exact hne (by simpa using this.symm)
      rcases hn with hn | hn | hn
      · exact hgo hn
      · exact hnop (commit_little _ _ hn)
      · refine hgo ?_
        rw [commit_succeeds h2 ?_ hn]
        obtain ⟨-, es, st', -, hne, hev, -⟩ := J.events tx hr
        rw [hev]; simpa using hne
  cases he with
  | begun es now db' tx h => exact J.begin_ hsh h (fun _ => rfl)
  | begunUnheard es st now db' tx hst h => exact J.begin_ hsh h (fun h => absurd h hst)
  | notBegun es st hst => exact same (by rintro es' h; simp only [Call.dispatchBegin.injEq] at h; exact hst h.2)
  | committed tx n db' hr hh h =>
    have := com tx .ok n rfl hr (.inl (by rw [h]))
    rw [h] at this; exact this
  | commitUnheard tx st n hr hh hst hn => exact com tx st n rfl hr (.inr hn)
  | rolledBack tx st ok hr hh hok =>
    have hfate : fate = false := by
      cases hf : fate with
      | false => rfl
      | true => exact absurd (by simp) (hB hf st)
    cases ok with
    | false => exact same (by simp)
    | true =>
      refine chg tx (deleteTx w.db tx.id) hr (by simp) (valid_deleteTx J.valid _) (Nat.le_refl _) (fun t ht _ => List.mem_of_mem_filter ht) ?_
      have hrow : ∀ t ∈ (deleteTx w.db tx.id).txs, t.id ≠ tx.id := by
        intro t ht; simpa using (List.mem_filter.1 ht).2
      cases J.standing tx hr with
      | opened h1 h2 h3 => exact .gone hfate hrow h2 (never_snoc h3 h2 h2)
      | gone h0 h1 h2 h3 => exact .gone hfate hrow h2 (never_snoc h3 h2 h2)
      | delivered h0 => rw [hfate] at h0; simp at h0
  | noContext _ st hh hx hst => exact same (by rcases hx with rfl | rfl <;> simp)
  | elsewhere _ h1 h2 => exact same (fun es => h1 es .ok)

theorem journey_other {conv : Event → DEv} {svc : Nat} {fate : Bool} {H : List (DB × DB)} {w : BusWorld} {o : Bus.Op} (J : Journey conv svc fate H w) (ho : Others fate w o) :
    Journey conv svc fate (H ++ [(w.db, o.apply w.db)]) { w with db := o.apply w.db } := by
  have hv := valid_apply J.valid o
  have hmono := nextTx_mono J.valid o
  -- what happens to the row and its standing
  have key : ∀ tx, w.row = some tx → (∀ t ∈ (o.apply w.db).txs, t.id = tx.id → t ∈ w.db.txs) ∧ Standing fate tx (H ++ [(w.db, o.apply w.db)]) { w with db := o.apply w.db } := by
    intro tx hr
    have S := J.standing tx hr
    have kept : Keep tx.id w.db (o.apply w.db) → (∀ t ∈ (o.apply w.db).txs, t.id = tx.id → t ∈ w.db.txs) ∧ Standing fate tx (H ++ [(w.db, o.apply w.db)]) { w with db := o.apply w.db } :=
      fun hk => ⟨fun t ht hi => (hk.row t hi).1 ht, S.keep (w' := { w with db := o.apply w.db }) hk (fun _ h => h) id⟩
    by_cases hchk : ∃ ask svc now ns, o = .check ask svc now ns
    · obtain ⟨ask, svc', now, ns, rfl⟩ := hchk
      obtain ⟨hns, hon⟩ := ho tx hr
      cases S with
      | gone h0 h1 h2 h3 => exact kept (check_closed h1)
      | delivered h0 hc h1 h2 h3 => exact kept (check_closed h1)
      | opened h1 h2 h3 =>
        obtain ⟨-, es, st, -, hne, hev, -⟩ := J.events tx hr
        obtain ⟨e, l, hel⟩ : ∃ e l, tx.events = e :: l := by
          rw [hev]; cases es with
          | nil => exact absurd rfl hne
          | cons a l => exact ⟨_, _, rfl⟩
        have hon := hon e (by rw [hel]; rfl)
        rcases check_effect (ask := ask) (svc := svc') (now := now) (ns := ns) J.valid h1 h2 hel hns with hk | ⟨hr', hg, hz⟩ | ⟨hc, hg, hst⟩
        · exact kept hk
        · exact ⟨fun t ht hi => absurd hi (hg t ht), .gone (hon.2 hr') hg hz (never_snoc h3 h2 hz)⟩
        · refine ⟨fun t ht hi => absurd hi (hg t ht), .delivered (hon.1 hc).1 (hon.1 hc).2 hg (once_now h3 hst) ?_⟩
          intro _ h0
          have := hst.2.1
          simp only [Bus.Op.apply] at this h0
          rw [h0, hel] at this
          simp at this
    · by_cases hcl : ∃ c svc now, o = .clean c svc now
      · obtain ⟨c, svc', now, rfl⟩ := hcl
        have ho := ho tx hr
        have hs := removed_clean (c := c) (svc := svc') (now := now) (db := w.db)
        have htxs : (Bus.Op.apply w.db (.clean c svc' now)).txs = w.db.txs := hs.txs
        have hsub : (storedOf (Bus.Op.apply w.db (.clean c svc' now)) tx.id).Sublist (storedOf w.db tx.id) := hs.events.filter _
        refine ⟨fun t ht _ => by rw [htxs] at ht; exact ht, ?_⟩
        cases S with
        | opened h1 h2 h3 =>
          have hz : storedOf (Bus.Op.apply w.db (.clean c svc' now)) tx.id = [] := by rw [h2] at hsub; exact List.eq_nil_of_sublist_nil hsub
          exact .opened (by simp only [htxs]; exact h1) hz (never_snoc h3 h2 hz)
        | gone h0 h1 h2 h3 =>
          have hz : storedOf (Bus.Op.apply w.db (.clean c svc' now)) tx.id = [] := by rw [h2] at hsub; exact List.eq_nil_of_sublist_nil hsub
          exact .gone h0 (by simp only [htxs]; exact h1) hz (never_snoc h3 h2 hz)
        | delivered h0 hc h1 h2 h3 =>
          refine .delivered h0 hc (by simp only [htxs]; exact h1) (once_snoc h2 hsub) ?_
          intro hal
          show storedOf (Bus.Op.apply w.db (.clean c svc' now)) tx.id ≠ []
          rw [ho hal]; exact h3 hal
      · exact kept (keep_apply J.valid hr (J.pos tx hr).1 (J.pos tx hr).2 ho (fun a b c d h => hchk ⟨a, b, c, d, h⟩) (fun a b c h => hcl ⟨a, b, c, h⟩))
  exact J.step (w' := { w with db := o.apply w.db }) hv rfl rfl (fun _ h => h) (fun _ h => h) hmono (fun tx hr => (key tx hr).1) (fun tx hr => (key tx hr).2)

theorem journey {outer : Bool} {conv : Event → DEv} {svc timeout : Nat} {fate : Bool} {H : List (DB × DB)} {w : BusWorld} {db0 : DB} (hv : Valid db0)
    (hs : Story conv svc timeout fate (BusWorld.before db0) H w) :
    GenShape outer (w.done.filter isTxCall) → (Call.commit .ok ∈ w.done → fate = true) → (fate = true → ∀ b, Call.busRollback b ∉ w.done) → Journey conv svc fate H w := by
  induction hs with
  | start => intro _ _ _; exact journey_start hv
  | @call H w w' x _ ha he ih =>
    intro h1 h2 h3
    refine journey_call (ih ?_ ?_ ?_) ha he h1 (fun h => h2 (by simp [h])) h3
    · exact GenShape.pre h1 (List.IsPrefix.filter _ ⟨[x], rfl⟩)
    · exact fun h => h2 (by simp [h])
    · exact fun h b hb => h3 h b (by simp [hb])
  | other _ ho ih => intro h1 h2 h3; exact journey_other (ih h1 h2 h3) ho
  | dies _ ih =>
    intro h1 h2 h3
    obtain ⟨j1, j2, j3, j4, j5, j6, j7⟩ := ih h1 h2 h3
    refine ⟨j1, j2, j3, j4, j5, j6, ?_⟩
    intro tx hr
    cases j7 tx hr with
    | opened a b c => exact .opened a b c
    | gone a b c d => exact .gone a b c d
    | delivered a b c d e => exact .delivered a b c d (by simp)


/-! ## C92 -/

theorem shape_noRollback {P : Trace} (h : TxShape (P.filter isTxCall)) {st b : Stat} (h1 : Call.commit st ∈ P) (h2 : Call.busRollback b ∈ P) : False := by
  have h1 : Call.commit st ∈ P.filter isTxCall := List.mem_filter.2 ⟨h1, rfl⟩
  have h2 : Call.busRollback b ∈ P.filter isTxCall := List.mem_filter.2 ⟨h2, rfl⟩
  generalize P.filter isTxCall = q at h h1 h2
  cases h <;> simp_all

theorem shape_oneBegin {outer : Bool} {P : Trace} (h : GenShape outer (P.filter isTxCall)) {es es' : List Event} {st st' : Stat} (h1 : Call.dispatchBegin es st ∈ P) (h2 : Call.dispatchBegin es' st' ∈ P) :
    es = es' ∧ st = st' := by
  have h1 : Call.dispatchBegin es st ∈ P.filter isTxCall := List.mem_filter.2 ⟨h1, rfl⟩
  have h2 : Call.dispatchBegin es' st' ∈ P.filter isTxCall := List.mem_filter.2 ⟨h2, rfl⟩
  generalize P.filter isTxCall = q at h h1 h2
  cases h <;> simp at h1 h2
  all_goals exact ⟨h1.1.trans h2.1.symm, h1.2.trans h2.2.symm⟩

theorem decided_facts {D : Type} {apply : Action → D → D} {S0 d : D} {T P : Trace} {fate : Bool} (h : Decided apply S0 T P d fate) (hsh : TxShape (P.filter isTxCall)) :
    (Call.commit .ok ∈ P → fate = true) ∧ (fate = true → ∀ b, Call.busRollback b ∉ P) := by
  cases fate with
  | false => exact ⟨fun hm => absurd hm h.2, by simp⟩
  | true =>
    obtain ⟨-, st, hst⟩ := h
    exact ⟨fun _ => rfl, fun _ b hb => shape_noRollback hsh hst hb⟩

/-- **C92** At every crash point of every command the database transaction has a fate: the content is the old one and no commit succeeded, or all writes are in and commit was called. -/
theorem C92_fate {D : Type} (apply : Action → D → D) (hw : opts.withTransaction = true) (S0 : D) {P : Trace} (hP : P <+: (run env opts c h).2.trace) {d : Db D}
    (hd : DbRun apply ⟨S0, none⟩ P d) : ∃ fate, Decided apply S0 (run env opts c h).2.trace P d.durable fate := by
  rcases crash_fate apply hw S0 hP hd with ⟨h1, h2⟩ | ⟨h1, h2⟩
  · exact ⟨false, h1, h2⟩
  · exact ⟨true, h1, h2⟩

/-- **C92** (partial) State and transactional events are one: take any command, the calls `w.done` it made before it ended or died, any interleaving with other clients, instances and services of the bus, with errors and
lost answers, and an honest checker. If the database content is the old one, none of its transactional events is ever stored. If all its writes are in, the events it handed over are stored exactly once, all together, with a
delivery record for every registered service, or the transaction is still open on the bus (`C92_checkback_delivers`: then the next check-back delivers). Missing: a `Commit` of the bus that is interrupted between its
statements loses events (`C38_commit_crash_loses`), so it is undivided here. -/
theorem C92_atomic_partial {D : Type} {apply : Action → D → D} (hw : opts.withTransaction = true) {S0 d : D} {conv : Event → DEv} {svc timeout : Nat} {fate : Bool} {H : List (DB × DB)} {w : BusWorld}
    {db0 : DB} (hv : Valid db0) (hs : Story conv svc timeout fate (BusWorld.before db0) H w) (hP : w.done <+: (run env opts c h).2.trace)
    (hf : Decided apply S0 (run env opts c h).2.trace w.done d fate) :
    (fate = false → d = S0 ∧ ∀ tx, w.row = some tx → NeverStored tx.id H) ∧
    (fate = true → Writes apply S0 (run env opts c h).2.trace d ∧ ∀ tx, w.row = some tx → StoredOnce tx H ∨ (tx ∈ w.db.txs ∧ NeverStored tx.id H)) := by
  have hsh := txShape_prefix hw hP
  have hAB := decided_facts hf hsh
  have J := journey hv hs hsh hAB.1 hAB.2
  constructor
  · rintro rfl
    refine ⟨hf.1, fun tx hr => ?_⟩
    cases J.standing tx hr with
    | opened _ _ h => exact h
    | gone _ _ _ h => exact h
    | delivered h => simp at h
  · rintro rfl
    refine ⟨hf.1, fun tx hr => ?_⟩
    cases J.standing tx hr with
    | opened h1 _ h => exact .inr ⟨h1, h⟩
    | gone h => simp at h
    | delivered _ _ _ h _ => exact .inl h

/-- **C92** What the row on the bus holds: the events handed over, in order, for the service of the command; a successful handover stores it. -/
theorem C92_handover {D : Type} {apply : Action → D → D} (hw : opts.withTransaction = true) {S0 d : D} {conv : Event → DEv} {svc timeout : Nat} {fate : Bool} {H : List (DB × DB)} {w : BusWorld}
    {db0 : DB} (hv : Valid db0) (hs : Story conv svc timeout fate (BusWorld.before db0) H w) (hP : w.done <+: (run env opts c h).2.trace)
    (hf : Decided apply S0 (run env opts c h).2.trace w.done d fate) {es : List Event} (hm : Call.dispatchBegin es .ok ∈ w.done) :
    ∃ tx, w.row = some tx ∧ tx.service = svc ∧ tx.events = es.map conv ∧ es ≠ [] := by
  have hsh := txShape_prefix hw hP
  have hAB := decided_facts hf hsh
  have J := journey hv hs hsh hAB.1 hAB.2
  obtain ⟨tx, hr⟩ := Option.isSome_iff_exists.1 (J.begun es hm)
  obtain ⟨h1, es', st', h2, h3, h4, -⟩ := J.events tx hr
  obtain ⟨rfl, rfl⟩ := shape_oneBegin hsh hm h2
  exact ⟨tx, hr, h1, h4, h3⟩

/-- **C92** (partial, see `C92_atomic_partial`) When the writes are durable and the command has died, or the bus has not been told, a check-back of the service after the transaction is due, whose checker answers commit and which can execute its statements, delivers: after it, the
events are stored exactly once. -/
theorem C92_checkback_delivers_partial {D : Type} {apply : Action → D → D} (hw : opts.withTransaction = true) {S0 d : D} {conv : Event → DEv} {svc timeout : Nat} {H : List (DB × DB)} {w : BusWorld}
    {db0 : DB} (hv : Valid db0) (hs : Story conv svc timeout true (BusWorld.before db0) H w) (hP : w.done <+: (run env opts c h).2.trace)
    (hf : Decided apply S0 (run env opts c h).2.trace w.done d true) {tx : TxRow} (hr : w.row = some tx) {ask : DEv → TxAns} {now : Nat} {ns : Nat → Nat}
    (hdue : tx.due < now) (hask : ∀ e, tx.events.head? = some e → ask e = .commit) (hn : ∀ i, 4 + w.db.services.length ≤ ns i) :
    StoredOnce tx (H ++ [(w.db, handleTxs ask svc now ns w.db)]) := by
  have hsh := txShape_prefix hw hP
  have hAB := decided_facts hf hsh
  have J := journey hv hs hsh hAB.1 hAB.2
  obtain ⟨hsvc, es, st, -, hne, hev, -⟩ := J.events tx hr
  obtain ⟨e, l, hel⟩ : ∃ e l, tx.events = e :: l := by
    rw [hev]; cases es with
    | nil => exact absurd rfl hne
    | cons a l => exact ⟨_, _, rfl⟩
  cases J.standing tx hr with
  | gone h => simp at h
  | delivered _ _ h1 h2 _ =>
    refine once_snoc h2 ?_
    rw [StoresNothing, (check_closed h1).ev]
  | opened h1 h2 h3 =>
    have hcb := C38_checkback (ask := ask) (ns := ns) J.valid h1 hsvc hdue h2 hel hn
    rw [hask e (by rw [hel]; rfl)] at hcb
    have hvh := valid_apply J.valid (.check ask svc now ns)
    exact once_now h3 (storesAll_of hvh h2 hcb.2.1 hcb.2.2)

/-- **C92** (partial, see `C92_atomic_partial`) The normal end: when the bus was told to commit and said yes, the events are stored exactly once, and nothing later stores them again. -/
theorem C92_told_means_stored_partial {D : Type} {apply : Action → D → D} (hw : opts.withTransaction = true) {S0 d : D} {conv : Event → DEv} {svc timeout : Nat} {fate : Bool} {H : List (DB × DB)} {w : BusWorld}
    {db0 : DB} (hv : Valid db0) (hs : Story conv svc timeout fate (BusWorld.before db0) H w) (hP : w.done <+: (run env opts c h).2.trace)
    (hf : Decided apply S0 (run env opts c h).2.trace w.done d fate) (hm : Call.busCommit .ok ∈ w.done) : ∃ tx, w.row = some tx ∧ StoredOnce tx H := by
  have hsh := txShape_prefix hw hP
  have hAB := decided_facts hf hsh
  have J := journey hv hs hsh hAB.1 hAB.2
  have hrow : ∃ tx, w.row = some tx ∧ ∀ t ∈ w.db.txs, t.id ≠ tx.id := by
    clear J hf
    obtain ⟨hA, hB⟩ := hAB
    clear hP
    induction hs with
    | start => simp [BusWorld.before] at hm
    | @call H w w' x hs ha he ih =>
      have hsh0 : TxShape (w.done.filter isTxCall) := GenShape.pre hsh (List.IsPrefix.filter _ ⟨[x], rfl⟩)
      have hA0 : Call.commit .ok ∈ w.done → fate = true := fun h => hA (by simp [h])
      have hB0 : fate = true → ∀ b, Call.busRollback b ∉ w.done := fun h b hb => hB h b (by simp [hb])
      simp only [List.mem_append, List.mem_singleton] at hm
      rcases hm with hm | rfl
      · -- nothing of interest comes after it
        obtain ⟨tx, h1, h2⟩ := ih hm hsh0 hA0 hB0
        have hin : Call.busCommit .ok ∈ w.done.filter isTxCall := List.mem_filter.2 ⟨hm, rfl⟩
        have hx : isTxCall x = false := by
          cases hx : isTxCall x with
          | false => rfl
          | true =>
            exfalso
            simp only [List.filter_append, List.filter_cons, hx, if_true, List.filter_nil] at hsh
            generalize hq : w.done.filter isTxCall ++ [x] = q at hsh
            generalize w.done.filter isTxCall = p at hq hin
            rcases p with _ | ⟨a, _ | ⟨b, _ | ⟨d, _ | ⟨f, p⟩⟩⟩⟩ <;> cases hsh <;> simp_all
        cases he <;> first | exact ⟨tx, h1, h2⟩ | (simp [isTxCall] at hx)
      · have J := journey hv hs hsh0 hA0 hB0
        cases he with
        | committed tx n db' hr hh h =>
          refine ⟨tx, hr, ?_⟩
          obtain ⟨es0, hf⟩ := shape_commit hsh
          have hcm : Call.commit .ok ∈ w.done := (List.mem_filter.1 (show _ ∈ w.done.filter isTxCall by rw [hf]; simp)).1
          cases J.standing tx hr with
          | opened h1 h2 h3 => exact (commit_stores J.valid (J.pos tx hr).2 h2 h).2.1
          | gone h0 => rw [hA0 hcm] at h0; simp at h0
          | delivered h0 hc h1 h2 h3 =>
            have := commit_again (h3 ha) n
            rw [h] at this; simp only at this; rw [this]; exact h1
        | commitUnheard tx st n hr hh hst => exact absurd rfl hst
        | noContext _ st hh hx hst => rcases hx with hx | hx <;> simp at hx; exact absurd hx.symm hst
        | elsewhere _ h1 h2 => exact absurd rfl (h2 .ok).1
    | @other H w o hs ho ih =>
      have J := journey hv hs hsh hA hB
      obtain ⟨tx, h1, h2⟩ := ih hm hsh hA hB
      refine ⟨tx, h1, ?_⟩
      intro t ht hi
      have J' := journey_other J ho
      have hu := J'.uniq tx h1 t ht hi
      subst hu
      cases J'.standing t h1 with
      | opened g1 g2 g3 =>
        cases J.standing t h1 with
        | opened k1 => exact h2 t k1 rfl
        | gone k0 k1 k2 k3 =>
          by_cases hchk : ∃ ask svc now ns, o = .check ask svc now ns
          · obtain ⟨ask, svc', now, ns, rfl⟩ := hchk
            exact k1 t (((check_closed k1).row t rfl).1 g1) rfl
          · by_cases hcl : ∃ c svc now, o = .clean c svc now
            · obtain ⟨c, svc', now, rfl⟩ := hcl
              have hss := removed_clean (c := c) (svc := svc') (now := now) (db := w.db)
              exact k1 t (by rw [← hss.txs]; exact g1) rfl
            · have hk := keep_apply J.valid h1 (J.pos t h1).1 (J.pos t h1).2 ho (fun a b c d h => hchk ⟨a, b, c, d, h⟩) (fun a b c h => hcl ⟨a, b, c, h⟩)
              exact k1 t ((hk.row t rfl).1 g1) rfl
        | delivered _ _ _ k =>
          obtain ⟨H1, s, H2, rfl, _, k2, _⟩ := k
          have hz := (g3 s (by simp)).2
          have := k2.2.1
          obtain ⟨-, es, st, -, hne, hev, -⟩ := J.events t h1
          rw [hz, hev] at this
          exact hne (by simpa using this.symm)
      | gone _ g => exact g t ht rfl
      | delivered _ _ g => exact g t ht rfl
    | dies _ ih => exact ih hm hsh hA hB
  obtain ⟨tx, h1, h2⟩ := hrow
  refine ⟨tx, h1, ?_⟩
  have hfate : fate = true := by
    obtain ⟨a, b, hT⟩ := List.append_of_mem hm
    have hsh' : TxShape ((a ++ [Call.busCommit .ok]).filter isTxCall) := GenShape.pre hsh (List.IsPrefix.filter _ ⟨b, by rw [hT]; simp⟩)
    obtain ⟨es0, hf⟩ := shape_commit hsh'
    have hcm : Call.commit .ok ∈ a := (List.mem_filter.1 (show _ ∈ a.filter isTxCall by rw [hf]; simp)).1
    exact hAB.1 (by rw [hT]; simp [hcm])
  cases J.standing tx h1 with
  | opened g1 => exact absurd rfl (h2 tx g1)
  | gone g => rw [hfate] at g; simp at g
  | delivered _ _ _ g _ => exact g

/-- Every crash point of every command has a story, whatever the tables hold: the hypotheses of the C92 theorems are met. (`hR`: the bus refuses `Rollback` without a transaction, as this one does, `eventbus.go:343-347`.) -/
theorem C92_possible (hw : opts.withTransaction = true) {conv : Event → DEv} {svc timeout : Nat} {fate : Bool} {db0 : DB} (hv : Valid db0) {P : Trace} (hP : P <+: (run env opts c h).2.trace)
    (hA : Call.commit .ok ∈ P → fate = true) (hB : fate = true → ∃ st, Call.commit st ∈ P)
    (hR : ∀ es st, Call.dispatchBegin es st ∈ P → st ≠ .ok → Call.busRollback .ok ∉ P) :
    ∃ H w, Story conv svc timeout fate (BusWorld.before db0) H w ∧ w.done = P ∧ w.alive = true := by
  have hsh := txShape_prefix hw hP
  replace hB : fate = true → ∀ b, Call.busRollback b ∉ P := fun h b hb => by
    obtain ⟨st, hst⟩ := hB h
    exact shape_noRollback hsh hst hb
  clear hP
  induction P using List.reverseRecOn with
  | nil => exact ⟨[], _, .start, rfl, rfl⟩
  | append_singleton P x ih =>
    have hsh0 : TxShape (P.filter isTxCall) := GenShape.pre hsh (List.IsPrefix.filter _ ⟨[x], rfl⟩)
    obtain ⟨H, w, hs, hd, ha⟩ := ih (fun h => hA (by simp [h])) (fun es st h1 h2 h3 => hR es st (by simp [h1]) h2 (by simp [h3])) hsh0 (fun h b hb => hB h b (by simp [hb]))
    subst hd
    have J := journey hv hs hsh0 (fun h => hA (by simp [h])) (fun h b hb => hB h b (by simp [hb]))
    suffices hx : ∃ w', BusEffect conv svc timeout w x w' ∧ w'.alive = w.alive by
      obtain ⟨w', h1, h2⟩ := hx
      exact ⟨_, _, .call hs ha h1, rfl, by rw [← ha, ← h2]⟩
    have row_of_held : w.held = true → ∃ tx, w.row = some tx := by
      intro hh
      cases hr : w.row with
      | some tx => exact ⟨tx, rfl⟩
      | none => rw [(J.noRow hr).1] at hh; simp at hh
    cases x with
    | dispatchBegin es st =>
      by_cases hst : st = .ok
      · subst hst
        have hne := (shape_begin hsh).2
        obtain ⟨db', tx, hb⟩ : ∃ db' tx, dispatchBegin w.db svc 0 timeout (es.map conv) true = (db', some tx) := by
          refine ⟨{ w.db with txs := w.db.txs ++ [⟨w.db.nextTx, svc, es.map conv, 0 + timeout⟩], nextTx := w.db.nextTx + 1 }, ⟨w.db.nextTx, svc, es.map conv, 0 + timeout⟩, ?_⟩
          rw [dispatchBegin, if_neg (by simpa using hne)]; rfl
        exact ⟨_, .begun es 0 db' tx hb, rfl⟩
      · exact ⟨_, .notBegun es st hst, rfl⟩
    | busCommit st =>
      cases hh : w.held with
      | true =>
        obtain ⟨tx, hr⟩ := row_of_held hh
        by_cases hst : st = .ok
        · subst hst
          have hc : ∃ db', Bus.commit w.db tx (4 + w.db.services.length) = (db', true) := by
            by_cases hz : storedOf w.db tx.id = []
            · obtain ⟨-, es, st', -, hne, hev, -⟩ := J.events tx hr
              have := commit_succeeds (n := 4 + w.db.services.length) hz (by rw [hev]; simpa using hne) (Nat.le_refl _)
              exact ⟨_, Prod.ext rfl this⟩
            · rw [show 4 + w.db.services.length = (3 + w.db.services.length) + 1 by omega, C38_repeat_is_noop hz]
              exact ⟨_, rfl⟩
          obtain ⟨db', hc⟩ := hc
          exact ⟨_, .committed tx _ db' hr hh hc, rfl⟩
        · exact ⟨_, .commitUnheard tx st 0 hr hh hst (.inl (by omega)), rfl⟩
      | false =>
        by_cases hst : st = .ok
        · exfalso
          obtain ⟨es0, hf⟩ := shape_commit hsh
          have hm : Call.dispatchBegin es0 .ok ∈ w.done := (List.mem_filter.1 (show _ ∈ w.done.filter isTxCall by rw [hf]; simp)).1
          obtain ⟨tx, hr⟩ := Option.isSome_iff_exists.1 (J.begun es0 hm)
          obtain ⟨-, es', st', h2, -, -, h5⟩ := J.events tx hr
          obtain ⟨rfl, rfl⟩ := shape_oneBegin hsh0 hm h2
          rw [h5 rfl] at hh; simp at hh
        · exact ⟨_, .noContext _ st hh (.inl rfl) hst, rfl⟩
    | busRollback st =>
      cases hh : w.held with
      | true =>
        obtain ⟨tx, hr⟩ := row_of_held hh
        exact ⟨_, .rolledBack tx st true hr hh (fun _ => rfl), rfl⟩
      | false =>
        by_cases hst : st = .ok
        · exfalso
          subst hst
          obtain ⟨es0, st0, hm⟩ := shape_rollback hsh
          by_cases h0 : st0 = .ok
          · subst h0
            obtain ⟨tx, hr⟩ := Option.isSome_iff_exists.1 (J.begun es0 hm)
            obtain ⟨-, es', st', h2, -, -, h5⟩ := J.events tx hr
            obtain ⟨rfl, rfl⟩ := shape_oneBegin hsh0 hm h2
            rw [h5 rfl] at hh; simp at hh
          · exact hR es0 st0 (by simp [hm]) h0 (by simp)
        · exact ⟨_, .noContext _ st hh (.inr rfl) hst, rfl⟩
    | _ => exact ⟨_, .elsewhere _ (by simp) (by simp), rfl⟩


/-- the demo command dies right after its commit, before the bus is told; its transactional event is 21. -/
def diedAfterCommit : Trace := (run Demo.okEnv Demo.txOpts Demo.addCmd Demo.evHeap).2.trace.take 14

/-- not vacuous: this crash has a story in which the bus knows nothing, and the check-back then stores the event once. -/
example : ∃ H w tx, Story (fun e => ⟨e.id, 1, .transaction, e.createdAt, e.body⟩) 7 10 true (BusWorld.before (emptyDB [7, 8])) H w ∧ w.done = diedAfterCommit ∧ w.row = some tx ∧
    tx.events = [⟨21, 1, .transaction, 5, 0⟩] ∧ StoredOnce tx (H ++ [(w.db, handleTxs (fun _ => .commit) 7 (tx.due + 1) (fun _ => 4 + w.db.services.length) w.db)]) := by
  have hP : diedAfterCommit <+: (run Demo.okEnv Demo.txOpts Demo.addCmd Demo.evHeap).2.trace := List.take_prefix _ _
  have hc : Call.commit .ok ∈ diedAfterCommit := by decide +kernel
  have hv : Valid (emptyDB [7, 8]) := valid_emptyDB (by decide)
  obtain ⟨H, w, hs, hd, -⟩ := C92_possible (env := Demo.okEnv) (opts := Demo.txOpts) (c := Demo.addCmd) (h := Demo.evHeap) rfl (conv := fun e => ⟨e.id, 1, .transaction, e.createdAt, e.body⟩)
    (svc := 7) (timeout := 10) (fate := true) hv hP (fun _ => rfl) (fun _ => ⟨.ok, hc⟩) (by
      intro es st _ _ hm
      have : ∀ x ∈ diedAfterCommit, x ≠ .busRollback .ok := by decide +kernel
      exact this _ hm rfl)
  have hf : Decided (D := List Action) (fun a l => l ++ [a]) [] (run Demo.okEnv Demo.txOpts Demo.addCmd Demo.evHeap).2.trace w.done
      ((run Demo.okEnv Demo.txOpts Demo.addCmd Demo.evHeap).2.trace.filterMap fun x => match x with | .exec a .ok => some a | _ => none) true := by
    refine ⟨?_, .ok, by rw [hd]; exact hc⟩
    have key : ∀ (t : Trace) (l : List Action), Writes (fun a l => l ++ [a]) l t (l ++ t.filterMap fun x => match x with | .exec a .ok => some a | _ => none) := by
      intro t
      induction t with
      | nil => intro l; simpa using Writes.nil l
      | cons x t ih =>
        intro l
        cases x with
        | exec a st =>
          cases st with
          | ok => refine .ok ?_; simpa using ih (l ++ [a])
          | err => exact .bad (by simp) (by simpa using ih l)
          | panic => exact .bad (by simp) (by simpa using ih l)
        | _ => exact .other (by simp) (by simpa using ih l)
    have := key (run Demo.okEnv Demo.txOpts Demo.addCmd Demo.evHeap).2.trace []
    simpa using this
  have hm : Call.dispatchBegin [⟨21, 5, true, 0⟩] .ok ∈ w.done := by rw [hd]; decide +kernel
  rw [← hd] at hP
  obtain ⟨tx, hr, h1, h2, h3⟩ := C92_handover rfl hv hs hP hf hm
  refine ⟨H, w, tx, hs, hd, hr, h2, C92_checkback_delivers_partial rfl hv hs hP hf hr (Nat.lt_succ_self _) (fun _ _ => rfl) (fun _ => Nat.le_refl _)⟩

end

end Ddd
