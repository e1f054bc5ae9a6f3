import Verif.Props.ChainDemo
import Verif.Props.BusProgress
/-!
# C123: the effects come about
-/
set_option linter.unusedVariables false
set_option linter.unusedSimpArgs false
namespace Ddd.Bus

/-- `p` is the only row its ID can ever belong to -/
def Sole (db : DB) (p : EvRow) : Prop := p.id < db.nextEv ∧ ∀ e ∈ db.events, e.id = p.id → e = p

/-- a record whose handler never returned is due when its event was created -/
structure FirstDue (s : State) : Prop where
  disp : ∀ d ∈ s.disps, ∀ p ∈ d.ps, Sole s.db p
  recs : ∀ r ∈ s.db.recs, (∃ e ret t b, .returned r.service r.eventId e ret t b ∈ s.log) ∨ ∃ p, Sole s.db p ∧ p.id = r.eventId ∧ r.next = p.ev.created

theorem Sole.mono {db db' : DB} {p : EvRow} (h : Sole db p) (hn : db.nextEv ≤ db'.nextEv) (he : ∀ e ∈ db'.events, e ∈ db.events ∨ db.nextEv ≤ e.id) : Sole db' p := by
  refine ⟨Nat.lt_of_lt_of_le h.1 hn, fun e h1 h2 => ?_⟩
  rcases he e h1 with h3 | h3
  · exact h.2 e h3 h2
  · have := h.1; omega

theorem newEvents_sole {f t : Nat} {es : List DEv} : ∀ p ∈ newEvents f t es, f ≤ p.id ∧ p.id < f + es.length ∧ ∀ q ∈ newEvents f t es, q.id = p.id → q = p := by
  induction es generalizing f with
  | nil => simp [newEvents]
  | cons e es ih =>
    intro p hp
    simp only [newEvents, List.mem_cons] at hp ⊢
    rcases hp with rfl | hp
    · refine ⟨Nat.le_refl _, by simp, ?_⟩
      rintro q (rfl | hq) h
      · rfl
      · have := (ih q hq).1; simp at h; omega
    · obtain ⟨h1, h2, h3⟩ := ih p hp
      refine ⟨by omega, by simp; omega, ?_⟩
      rintro q (rfl | hq) h
      · simp at h; omega
      · exact h3 q hq h

theorem firstDue_reachable {c : Cfg} {pol : Pol} (hfresh : pol.fresh = true) {s : State} (h : Reachable c pol s) : FirstDue s := by
  induction h with
  | init => exact ⟨by simp [State.init], by simp [State.init]⟩
  | @step s s' h1 hst ih =>
    have hh := held_reachable hfresh h1
    have hco := (schema_reachable h1).2
    have save : ∀ (x : Rec) (r : Rec) (log : List Log), (∀ y ∈ s.log, y ∈ log) → x ∈ s.db.recs → r.service = x.service → r.eventId = x.eventId →
        (r.next = x.next ∨ ∃ e ret t b, .returned r.service r.eventId e ret t b ∈ log) → ∀ y ∈ (saveRec s.db r).recs,
          (∃ e ret t b, .returned y.service y.eventId e ret t b ∈ log) ∨ ∃ p, Sole s.db p ∧ p.id = y.eventId ∧ y.next = p.ev.created := by
      intro x r log hsub hx h1 h2 h3 y hy
      have old : ∀ z ∈ s.db.recs, (∃ e ret t b, .returned z.service z.eventId e ret t b ∈ log) ∨ ∃ p, Sole s.db p ∧ p.id = z.eventId ∧ z.next = p.ev.created := by
        intro z hz
        rcases ih.recs z hz with ⟨e, ret, t, b, h⟩ | h
        · exact .inl ⟨e, ret, t, b, hsub _ h⟩
        · exact .inr h
      simp only [saveRec, List.mem_map] at hy
      obtain ⟨z, hz, rfl⟩ := hy
      split
      · rcases h3 with h3 | h3
        · rw [h1, h2, h3]; exact old x hx
        · exact .inl h3
      · exact old z hz
    cases hst with
    | register svc => 
      have h2 : (register s.db svc).recs = s.db.recs ∧ (register s.db svc).events = s.db.events ∧ (register s.db svc).nextEv = s.db.nextEv := by unfold register; split <;> simp
      have h3 : ∀ p, Sole s.db p → Sole (register s.db svc) p := fun p hp => hp.mono (by omega) (by rw [h2.2.1]; exact fun e he => .inl he)
      refine ⟨fun d hd p hp => h3 p (ih.disp d hd p hp), fun r hr => ?_⟩
      replace hr : r ∈ (register s.db svc).recs := hr
      rw [h2.1] at hr
      rcases ih.recs r hr with h | ⟨p, hp, h⟩
      · exact .inl h
      · exact .inr ⟨p, h3 p hp, h⟩
    | dispInsert tid es he =>
      have h3 : ∀ p, Sole s.db p → Sole (insertEvents s.db tid es) p := by
        intro p hp
        refine hp.mono (by simp [insertEvents]) fun e he => ?_
        simp only [insertEvents, List.mem_append] at he
        rcases he with he | he
        · exact .inl he
        · exact .inr (newEvents_sole e he).1
      refine ⟨fun d hd p hp => ?_, fun r hr => ?_⟩
      · rcases List.mem_cons.1 hd with rfl | hd
        · obtain ⟨g1, g2, g3⟩ := newEvents_sole p hp
          refine ⟨by simpa [insertEvents] using g2, fun e he hi => ?_⟩
          simp only [insertEvents, List.mem_append] at he
          rcases he with he | he
          · have := (schema_reachable h1).1.evFresh e he; omega
          · exact g3 e he hi
        · exact h3 p (ih.disp d hd p hp)
      · rcases ih.recs r hr with h | ⟨p, hp, h⟩
        · exact .inl h
        · exact .inr ⟨p, h3 p hp, h⟩
    | dispList ps hps =>
      refine ⟨fun d hd p hp => ?_, ih.recs⟩
      rcases List.mem_cons.1 hd with rfl | hd
      · exact ih.disp _ hps p hp
      · exact ih.disp d (List.mem_of_mem_erase hd) p hp
    | dispRecs ps sv todo hps hu =>
      refine ⟨fun d hd p hp => ?_, fun r hr => ?_⟩
      · rcases List.mem_cons.1 hd with rfl | hd
        · exact ih.disp _ hps p hp
        · exact ih.disp d (List.mem_of_mem_erase hd) p hp
      · rcases List.mem_append.1 hr with hr | hr
        · rcases ih.recs r hr with ⟨e, ret, t, b, h⟩ | h
          · exact .inl ⟨e, ret, t, b, List.mem_append_right _ h⟩
          · exact .inr h
        · obtain ⟨p, hp1, hp2⟩ := newRecs_fresh hr
          exact .inr ⟨p, ih.disp _ hps p hp1, hp2.2.1.symm, hp2.2.2.2.2.1⟩
    | dispDrop d => exact ⟨fun d hd => ih.disp d (List.mem_of_mem_erase hd), ih.recs⟩
    | call j hj hl hx hs hm hf =>
      refine ⟨ih.disp, fun r hr => ?_⟩
      rcases ih.recs r hr with ⟨e, ret, t, b, h⟩ | h
      · exact .inl ⟨e, ret, t, b, List.mem_cons_of_mem _ h⟩
      · exact .inr h
    | blocked j hj hl hx hs hm hf => exact ⟨ih.disp, save _ _ _ (fun _ h => h) (hf hfresh) rfl rfl (.inl rfl)⟩
    | finish j ret hj t0 ht =>
      refine ⟨ih.disp, save j.t.r _ _ (fun _ h => List.mem_cons_of_mem _ h) (hh j hj) ?_ ?_ (.inr ?_)⟩
      · cases ret <;> simp only [afterCall, retryStep] <;> (split <;> rfl)
      · cases ret <;> simp only [afterCall, retryStep] <;> (split <;> rfl)
      · refine ⟨j.t.e, ret, t0, true, ?_⟩
        have h2 : (afterCall c.strategy t0 j.t.r ret).service = j.svc ∧ (afterCall c.strategy t0 j.t.r ret).eventId = j.t.r.eventId := by
          rw [← hco.busy j hj]
          exact ⟨(afterCall_svc ..).1, (afterCall_svc ..).2.1⟩
        rw [h2.1, h2.2]; simp
    | finishLost j ret hj hp t0 ht =>
      refine ⟨ih.disp, fun r hr => ?_⟩
      rcases ih.recs r hr with ⟨e, ret, t, b, h⟩ | h
      · exact .inl ⟨e, ret, t, b, List.mem_cons_of_mem _ h⟩
      · exact .inr h
    | cleanRecs svc b rest h hl => exact ⟨ih.disp, fun r hr => ih.recs r (List.mem_of_mem_filter hr)⟩
    | cleanEvents svc d rest h =>
      have h3 : ∀ p, Sole s.db p → Sole (deleteEvents s.db d) p := fun p hp => hp.mono (Nat.le_refl _) fun e he => .inl (List.mem_of_mem_filter he)
      refine ⟨fun x hx p hp => h3 p (ih.disp x hx p hp), fun r hr => ?_⟩
      rcases ih.recs r hr with h | ⟨p, hp, h⟩
      · exact .inl h
      · exact .inr ⟨p, h3 p hp, h⟩
    | expire r hr hl hp => exact ⟨ih.disp, save r _ _ (fun _ h => List.mem_cons_of_mem _ h) hr rfl rfl (.inl rfl)⟩
    | _ => exact ⟨ih.disp, ih.recs⟩

theorem handleAllLog_unordered {c : Cfg} {svc start now : Nat} {ans : Nat → DEv → Ret} (ts : List Tuple) (i : Nat) (db : DB) (hn : (db.recs.map Rec.id).Nodup)
    (h : ∀ t ∈ ts, t.r.key ∈ db.recs.map Rec.key) {t : Tuple} (ht : t ∈ ts) (hs : t.r.status = .init) (hu : t.e.ev.sendType ≠ .fifo ∧ t.e.ev.sendType ≠ .laxFifo) :
    .called svc t.r.eventId t.e now ∈ handleAllLog c svc start now ans i ts db := by
  induction ts generalizing i db with
  | nil => simp at ht
  | cons t' ts ih =>
    simp only [handleAllLog, List.mem_append]
    rcases List.mem_cons.1 ht with rfl | ht
    · right
      obtain ⟨x, hx, hk⟩ := List.mem_map.1 (h t (by simp))
      have h1 : (db.recs.any fun x => x.id == t.r.id) = true := by
        rw [List.any_eq_true]; exact ⟨x, hx, by simp [(Rec.key_eq.1 hk).1]⟩
      simp [handleLog, handle, h1, hs, mayCall, hu]
    · left
      have h1 := same_handle (c := c) (svc := svc) (start := start) (now := now) hn (h t' (by simp)) (ans i)
      exact ih _ _ (by rw [ids_of_keys h1.keys]; exact hn) (fun t'' ht'' => by rw [h1.keys]; exact h t'' (by simp [ht''])) ht

end Ddd.Bus

namespace Ddd.Chain
open Spec Bus
section
variable {env : Env} {opts : Opts} {cmd : Cmd} {h : Heap}

/-- the worker of `v` looks at `db` at `now`: the event of row `p` is inside the window, it is not an ordered one and not from the future, and the work that is due for `v` fits into one run -/
structure Reaches (c : Cfg) (db : DB) (v now : Nat) (p : EvRow) : Prop where
  window : now ≤ p.ev.created + c.window
  created : p.ev.created ≤ now
  unordered : p.ev.sendType ≠ .fifo ∧ p.ev.sendType ≠ .laxFifo
  fits : (db.recs.countP fun r => decide (r.service = v ∧ r.status = .init ∧ r.next ≤ now)) ≤ c.limit


/-- what holds of an event of the transaction from the step on that stored it -/
theorem stored_facts {H1 H2 : List (DB × DB)} {s : DB × DB} {ops : List Bus.Op} {d : DB} (hb : Behind (emptyDB []) (H1 ++ s :: H2) ops d) {c : Cfg} (hT : InTime c 0 ops) {tx : TxRow} (g2 : StoresAll tx s) {p : EvRow}
    (hp : p ∈ storedOf s.2 tx.id) {v : Nat} (hreg : ∃ s' ∈ H1 ++ [s], v ∈ s'.1.services) :
    (∀ e, Reached (opsLog (emptyDB []) ops) e → e.id = p.id → e = p) ∧ (∀ e ∈ d.events, e.id = p.id → e = p) ∧ .stored v p.id ∈ opsLog (emptyDB []) ops := by
  have hv := valid_emptyDB (ss := []) List.nodup_nil
  obtain ⟨hpair, hall⟩ := hb.later hv
  have hvs : v ∈ s.1.services := by
    obtain ⟨s', hs', hv'⟩ := hreg
    rcases List.mem_append.1 hs' with hs' | hs'
    · have := (List.pairwise_append.1 hpair).2.2 s' hs' s (by simp)
      exact this.services v ((hall s' (by simp [hs'])).1.services v hv')
    · simp at hs'; subst hs'; exact hv'
  have hps := (List.mem_filter.1 hp).1
  obtain ⟨hl1, hl2, hvs1, hvs2⟩ := hall s (by simp)
  have hnew : s.1.nextEv ≤ p.id := by
    rcases hl1.events p hps with h | h
    · have : p ∈ storedOf s.1 tx.id := List.mem_filter.2 ⟨h, (List.mem_filter.1 hp).2⟩
      rw [g2.1] at this; simp at this
    · exact h
  refine ⟨?_, ?_, ?_⟩
  · intro e he hid
    obtain ⟨s', hs', hse⟩ := hb.reached he
    have hlt := (hall s' hs').2.2.1.evFresh e hse
    have hin : e ∈ s.2.events := by
      rcases List.mem_append.1 hs' with hm | hm
      · have h3 := (List.pairwise_append.1 hpair).2.2 s' hm s (by simp)
        have h4 := (hall s' hs').1.nextEv
        have h5 := h3.nextEv
        omega
      · rcases List.mem_cons.1 hm with rfl | hm
        · omega
        · have h3 := (List.pairwise_cons.1 (List.pairwise_append.1 hpair).2.1).1 s' hm
          rcases h3.events e hse with h4 | h4
          · exact h4
          · have := hvs2.evFresh p hps; omega
    exact List.inj_on_of_nodup_map hvs2.evIds hin hps hid
  · intro e he hid
    rcases hl2.events e he with h | h
    · exact List.inj_on_of_nodup_map hvs2.evIds h hps hid
    · have := hvs2.evFresh p hps; omega
  · obtain ⟨ops1, ops2, d1, rfl, hb1, hd1, hd2⟩ := hb.prefix (H1 ++ [s]) H2 (by simp)
    have hT1 : InTime c 0 ops1 := inTime_append hT
    obtain ⟨now1, hreach1⟩ := C102_execution hT1
    have hd : d1 = s.2 := by
      have key : ∀ {H : List (DB × DB)} {ops : List Bus.Op} {d : DB}, Behind (emptyDB []) H ops d → H = H1 ++ [s] → d = s.2 := by
        intro H ops d hb he
        cases hb with
        | start => simp at he
        | op o _ => obtain ⟨-, h⟩ := List.append_inj' he rfl; simp only [List.cons.injEq, and_true] at h; rw [← h]
        | idle _ => obtain ⟨-, h⟩ := List.append_inj' he rfl; simp only [List.cons.injEq, and_true] at h; rw [← h]
      exact key hb1 rfl
    obtain ⟨-, x, hx, hx1, hx2, -⟩ := g2.2.2 p hp v hvs
    have := recs_logged (by rfl) hreach1 x (by show x ∈ (runOps (emptyDB []) ops1).recs; rw [← hb1.run, hd]; exact hx)
    rw [opsLog_append]
    rw [hx1, hx2] at this
    exact List.mem_append_right _ this

/-- **C123** The handlers are called: when the command's transaction is no longer open on the bus, then after one more run of the worker of a service that was registered when the events were stored, its handlers have been called
with each event of the command that the worker reaches: in this run, or before. -/
theorem C123_called_partial {D : Type} {apply : Action → D → D} (hw : opts.withTransaction = true) {S0 d : D} {conv : Event → DEv} {svc timeout : Nat} {H : List (DB × DB)} {w : BusWorld}
    (hs : Story conv svc timeout true (BusWorld.before (emptyDB [])) H w) (hP : w.done <+: (run env opts cmd h).2.trace)
    (hf : Decided apply S0 (run env opts cmd h).2.trace w.done d true) {ops : List Bus.Op} (hb : Behind (emptyDB []) H ops w.db)
    {c : Cfg} {L : Int} (hL : -1 ≤ L) (hst : c.strategy = limitRetry L ∨ ∃ i, c.strategy = intervalRetry i L) (hT : InTime c 0 ops) {tx : TxRow} (hr : w.row = some tx) (hclosed : tx ∉ w.db.txs) :
    ∃ H1 s H2, H = H1 ++ s :: H2 ∧ StoresAll tx s ∧ ∀ p ∈ storedOf s.2 tx.id, ∀ v, (∃ s' ∈ H1 ++ [s], v ∈ s'.1.services) →
      ∀ now ans, Reaches c w.db v now p → ∃ t, .called v p.id p t ∈ opsLog (emptyDB []) (ops ++ [.run c v now ans]) := by
  have hv := valid_emptyDB (ss := []) List.nodup_nil
  obtain ⟨-, h2⟩ := C92_atomic_partial hw hv hs hP hf
  rcases (h2 rfl).2 tx hr with ⟨H1, s, H2, rfl, g1, g2, g3⟩ | ⟨hopen, hn⟩
  · refine ⟨H1, s, H2, rfl, g2, fun p hp v hreg now ans hre => ?_⟩
    obtain ⟨hown, huniq, hstored⟩ := stored_facts hb hT g2 hp hreg
    have before : (∃ e ret t b, .returned v p.id e ret t b ∈ opsLog (emptyDB []) ops) → ∃ t, .called v p.id p t ∈ opsLog (emptyDB []) (ops ++ [.run c v now ans]) := by
      rintro ⟨e, ret, t, b, hm⟩
      have hc := opsLog_called _ _ hm
      have hcount : Counting c.strategy := by
        rcases hst with hst | ⟨d, hst⟩ <;> rw [hst]
        · exact counting_limitRetry L
        · exact counting_intervalRetry d L
      have := hown e ⟨v, p.id, t, .inl hc⟩ ((C102_calls hcount hT v p.id).1 e t hc)
      subst this
      exact ⟨t, by rw [opsLog_append]; exact List.mem_append_right _ hc⟩
    obtain ⟨now', hreach⟩ := C102_execution hT
    rcases C102_no_loss hL hst hT hstored with h1 | h1 | h1
    · obtain ⟨r, hr1, hr2, hr3, hr4⟩ := h1
      rcases (firstDue_reachable (by rfl) hreach).recs r hr1 with ⟨e, ret, t, b, hm⟩ | ⟨q, hq, hq1, hq2⟩
      · rw [hr2, hr3] at hm
        exact before ⟨e, ret, t, b, hm⟩
      · have hvd := hb.valid hv
        have hid := integrity_runOps ops hv (by intro r hr; simp [emptyDB] at hr)
        rw [← hb.run] at hr1 hid
        obtain ⟨e, he, hei⟩ := hid r hr1
        rw [hr3] at hei
        have hep := huniq e he hei
        have hqe : e = q := hq.2 e (by show e ∈ (runOps (emptyDB []) ops).events; rw [← hb.run]; exact he) (by rw [hei, hq1, hr3])
        subst hep
        subst hqe
        obtain ⟨start, hstart⟩ : ∃ start, scanStart w.db c.window now = some start := by
          cases hsc : scanStart w.db c.window now with
          | some x => exact ⟨x, rfl⟩
          | none => exact absurd hre.window (C39_no_start hsc e he)
        have hwin := C39_window_start.1 hstart
        have hdue : Due w.db v start now r := ⟨hr1, hr2, hr4, by rw [hq2]; exact hre.created, by rw [hr3]; exact hwin.2 e he hre.window⟩
        obtain ⟨t, ht, htr⟩ := scan_fitting (c := c) hvd hid (Nat.le_trans (List.countP_mono_left (fun x _ hx => by simp only [decide_eq_true_eq] at hx ⊢; exact ⟨hx.1, hx.2.1, hx.2.2.1⟩)) hre.fits) hdue
        have hrw := C39_right_work hvd hid v c.limit start now
        have hte : t.e = e := huniq t.e (hrw.own t ht).1 (by rw [(hrw.own t ht).2, htr, hr3])
        refine ⟨now, ?_⟩
        rw [opsLog_append, ← hb.run]
        refine List.mem_append_left _ ?_
        simp only [opsLog, List.nil_append, Op.log, runLog, hstart]
        have := handleAllLog_unordered (c := c) (svc := v) (start := start) (now := now) (ans := ans) _ 0 w.db hvd.recIds (fun t' ht' => List.mem_map_of_mem (hrw.due t' ht').1) ht (by rw [htr]; exact hr4) (by rw [hte]; exact hre.unordered)
        rw [hte, htr, hr3] at this
        exact this
    · obtain ⟨x, hx, hok⟩ := h1
      cases x with
      | returned sv i e ret t b =>
        simp [Log.isOk] at hok
        obtain ⟨rfl, rfl, -, rfl⟩ := hok
        exact before ⟨e, _, t, b, hx⟩
      | _ => simp [Log.isOk] at hok
    · have hpos : 0 < failures (opsLog (emptyDB []) ops) v p.id := by omega
      obtain ⟨x, hx, hok⟩ := List.countP_pos_iff.1 hpos
      cases x with
      | returned sv i e ret t b =>
        simp [Log.isFail] at hok
        obtain ⟨rfl, rfl, -⟩ := hok
        exact before ⟨e, _, t, b, hx⟩
      | _ => simp [Log.isFail] at hok
  · exact absurd hopen hclosed

/-- **C123** Every cause has its effect: whatever happened before, and whether the process of the command died after its commit or not: a check-back of the command's service after the transaction is due, which can execute its
statements and whose checker knows that the command committed, and one run of the worker of another service after that, and the handlers of that service have been called with each event of the command that the worker reaches. -/
theorem C123_eventually_partial {D : Type} {apply : Action → D → D} (hw : opts.withTransaction = true) {S0 d : D} {conv : Event → DEv} {svc timeout : Nat} {H : List (DB × DB)} {w : BusWorld}
    (hs : Story conv svc timeout true (BusWorld.before (emptyDB [])) H w) (hP : w.done <+: (run env opts cmd h).2.trace)
    (hf : Decided apply S0 (run env opts cmd h).2.trace w.done d true) {ops : List Bus.Op} (hb : Behind (emptyDB []) H ops w.db)
    {c : Cfg} {L : Int} (hL : -1 ≤ L) (hst : c.strategy = limitRetry L ∨ ∃ i, c.strategy = intervalRetry i L)
    {tx : TxRow} (hr : w.row = some tx) {ask : DEv → TxAns} {now : Nat} {ns : Nat → Nat} (hT : InTime c 0 (ops ++ [.check ask svc now ns]))
    (hdue : tx.due < now) (hask : ∀ e, tx.events.head? = some e → ask e = .commit) (hn : ∀ i, 4 + w.db.services.length ≤ ns i) :
    ∃ H1 s H2, H ++ [(w.db, handleTxs ask svc now ns w.db)] = H1 ++ s :: H2 ∧ StoresAll tx s ∧ ∀ p ∈ storedOf s.2 tx.id, ∀ v, (∃ s' ∈ H1 ++ [s], v ∈ s'.1.services) →
      ∀ now' ans, Reaches c (handleTxs ask svc now ns w.db) v now' p → ∃ t, .called v p.id p t ∈ opsLog (emptyDB []) (ops ++ [.check ask svc now ns, .run c v now' ans]) := by
  have hv := valid_emptyDB (ss := []) List.nodup_nil
  have hsh := txShape_prefix hw hP
  have hAB := decided_facts hf hsh
  have J := journey hv hs hsh hAB.1 hAB.2
  have hclosed : tx ∉ (handleTxs ask svc now ns w.db).txs := by
    obtain ⟨hsvc, es, st, -, hne, hev, -⟩ := J.events tx hr
    obtain ⟨e, l, hel⟩ : ∃ e l, tx.events = e :: l := by
      rw [hev]; cases es with
      | nil => exact absurd rfl hne
      | cons a l => exact ⟨_, _, rfl⟩
    cases J.standing tx hr with
    | gone h => simp at h
    | delivered _ _ h1 h2 _ => intro hm; exact h1 tx (((frame_checks _ _ fun t ht => h1 t (List.mem_of_mem_filter ht)).row tx rfl).1 hm) rfl
    | opened h1 h2 h3 =>
      have hcb := C38_checkback (ask := ask) (ns := ns) J.valid h1 hsvc hdue h2 hel hn
      rw [hask e (by rw [hel]; rfl)] at hcb
      exact fun hm => hcb.1 tx hm rfl
  have hs' : Story conv svc timeout true (BusWorld.before (emptyDB [])) (H ++ [(w.db, handleTxs ask svc now ns w.db)]) { w with db := handleTxs ask svc now ns w.db } :=
    Story.other (o := .check ask svc now ns) hs (by
      intro tx' htx'
      rw [hr] at htx'
      simp only [Option.some.injEq] at htx'
      subst htx'
      exact ⟨fun i => .inr (hn i), fun e he => ⟨fun _ => ⟨rfl, hf.2⟩, fun h => by rw [hask e he] at h; cases h⟩⟩)
  obtain ⟨H1, s, H2, h1, h2, h3⟩ := C123_called_partial hw hs' hP hf (.op (.check ask svc now ns) hb) hL hst hT hr hclosed
  refine ⟨H1, s, H2, h1, h2, fun p hp v hreg now' ans hre => ?_⟩
  have := h3 p hp v hreg now' ans hre
  rwa [List.append_assoc] at this

end

open Ddd.Chain.Demo

/-- the story of `demo_story` until the process dies -/
theorem demo_died : ∃ H w, Story conv 7 10 true (BusWorld.before (emptyDB [])) H w ∧ Behind (emptyDB []) H (ops.take 2) w.db ∧ w.done = diedAfterCommit ∧ w.row = some row ∧ w.alive = false := by
  have h0 : Story conv 7 10 true (BusWorld.before (emptyDB [])) [] (BusWorld.before (emptyDB [])) := .start
  have b0 : Behind (emptyDB []) [] [] (emptyDB []) := .start
  have h1 := Story.other (o := .register 8) h0 (by intro tx h; simp [BusWorld.before] at h)
  have b1 := Behind.op (.register 8) b0
  obtain ⟨H2, h2, b2⟩ := story_calls (diedAfterCommit.take 11) h1 b1 rfl (by decide +kernel)
  have h3 := Story.call h2 rfl (.begun [⟨21, 5, true, 0⟩] 5 ((Bus.Op.begin 7 5 10 [conv ⟨21, 5, true, 0⟩] true).apply ((Bus.Op.register 8).apply (emptyDB []))) row (by decide +kernel))
  have b3 := Behind.op (.begin 7 5 10 [conv ⟨21, 5, true, 0⟩] true) b2
  obtain ⟨H4, h4, b4⟩ := story_calls (diedAfterCommit.drop 12) h3 b3 rfl (by decide +kernel)
  have h5 := Story.dies h4
  have hdone : diedAfterCommit.take 11 ++ [Call.dispatchBegin [⟨21, 5, true, 0⟩] .ok] ++ diedAfterCommit.drop 12 = diedAfterCommit := by decide +kernel
  exact ⟨_, _, h5, b4, by show [] ++ diedAfterCommit.take 11 ++ [Call.dispatchBegin [⟨21, 5, true, 0⟩] .ok] ++ diedAfterCommit.drop 12 = _; rw [List.nil_append]; exact hdone, rfl, rfl⟩

/-- not vacuous: the command died between its commit and telling the bus; the check-back of its service at 16 and the run of the worker of service 8 at 17 reach the handler -/
example : ∃ H w d, Story conv 7 10 true (BusWorld.before (emptyDB [])) H w ∧ w.alive = false ∧ Decided (fun a l => l ++ [a]) [] (run Ddd.Demo.okEnv Ddd.Demo.txOpts Ddd.Demo.addCmd Ddd.Demo.evHeap).2.trace w.done d true ∧
    w.row = some row ∧ row ∈ w.db.txs ∧ row.due < 16 ∧ InTime conf 0 (ops.take 2 ++ [.check (fun _ => .commit) 7 16 (fun _ => 10)]) ∧
    Reaches conf (handleTxs (fun _ => .commit) 7 16 (fun _ => 10) w.db) 8 17 ⟨1, ⟨21, 1, .transaction, 5, 12⟩, 1⟩ ∧
    ∃ t, .called 8 1 ⟨1, ⟨21, 1, .transaction, 5, 12⟩, 1⟩ t ∈ opsLog (emptyDB []) (ops.take 2 ++ [.check (fun _ => .commit) 7 16 (fun _ => 10), .run conf 8 17 (fun _ _ => .err)]) := by
  obtain ⟨H, w, hs, hb, hd, hr, hal⟩ := demo_died
  obtain ⟨d, hd'⟩ := writes_exist (fun a l => l ++ [a]) (run Ddd.Demo.okEnv Ddd.Demo.txOpts Ddd.Demo.addCmd Ddd.Demo.evHeap).2.trace []
  have hf : Decided (fun a l => l ++ [a]) [] (run Ddd.Demo.okEnv Ddd.Demo.txOpts Ddd.Demo.addCmd Ddd.Demo.evHeap).2.trace w.done d true := ⟨hd', .ok, by rw [hd]; decide +kernel⟩
  have hT : InTime conf 0 (ops.take 2 ++ [.check (fun _ => .commit) 7 16 (fun _ => 10)]) := by
    simp only [ops, List.take, List.cons_append, List.nil_append, InTime]
    exact ⟨by decide, by decide, trivial⟩
  have hdb := hb.run
  have h8 : w.db.services = [8] := by rw [hdb]; decide +kernel
  have hre : Reaches conf (handleTxs (fun _ => .commit) 7 16 (fun _ => 10) w.db) 8 17 ⟨1, ⟨21, 1, .transaction, 5, 12⟩, 1⟩ := by
    rw [hdb]
    exact ⟨by decide, by decide, by decide, by decide +kernel⟩
  refine ⟨H, w, d, hs, hal, hf, hr, by rw [hdb]; decide +kernel, by decide, hT, hre, ?_⟩
  exact ⟨17, by decide +kernel⟩

end Ddd.Chain
