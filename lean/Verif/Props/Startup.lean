import Verif.Spec.Startup
import Verif.Props.BusMsg
import Verif.Props.BusLife
import Verif.Props.Router
/-!
# C116: ticks of the bus before the service is ready
-/
set_option linter.unusedVariables false
set_option linter.unusedSimpArgs false
namespace Ddd.Startup
open Bus Router

/-! ## the transactions of a tick -/

theorem txs_eq {ask : DEv → Option TxAns} {svc now : Nat} {ns : Nat → Nat} {db db1 : DB} (h : BusLife.handleTxsP ask svc now ns db = some db1) :
    db1 = handleTxs (fun e => (ask e).getD .unknown) svc now ns db := by
  unfold BusLife.handleTxsP at h
  unfold handleTxs
  generalize (db.txs.filter _) = l at h ⊢
  induction l generalizing db with
  | nil => simpa using h.symm
  | cons t l ih =>
    rw [List.foldlM_cons] at h
    cases hc : BusLife.checkTxP ask (ns t.id) db t with
    | none => rw [hc] at h; cases h
    | some d =>
      rw [hc] at h
      have h1 : d = checkTx (fun e => (ask e).getD .unknown) db t (ns t.id) := by
        unfold BusLife.checkTxP at hc
        unfold checkTx
        cases he : t.events with
        | nil => rw [he] at hc; cases hc
        | cons e es =>
          rw [he] at hc
          cases ha : ask e with
          | none => simp [ha] at hc
          | some a => simp only [ha, Option.map_some, Option.some.injEq, checkTx, he, Option.getD_some] at hc ⊢; exact hc.symm
      rw [List.foldl_cons, ← h1]
      exact ih h

theorem tick_cases {env : Env} {now : Nat} {ns : Nat → Nat} {p : Proc} :
    tick env now ns p = { p with alive := false } ∨
    (p.engine = false ∧ tick env now ns p = { p with db := (Op.check (fun e => (ask env p now e).getD .unknown) env.svc now ns).apply p.db }) ∨
    (p.engine = true ∧ tick env now ns p = { p with db := (handleEvents env.cfg env.svc now (ans env p now) ((Op.check (fun e => (ask env p now e).getD .unknown) env.svc now ns).apply p.db)).1 }) := by
  unfold tick
  cases h : BusLife.handleTxsP (ask env p now) env.svc now ns p.db with
  | none => exact .inl rfl
  | some db1 =>
    have h1 : db1 = (Op.check (fun e => (ask env p now e).getD .unknown) env.svc now ns).apply p.db := txs_eq h
    right
    cases he : p.engine with
    | false => exact .inl ⟨rfl, by simp only [h1]; rfl⟩
    | true => exact .inr ⟨rfl, by simp only [h1]; rfl⟩

/-! ## one pass -/

theorem afterCall_success {st : Strategy} {now : Nat} {r : Rec} {a : Bus.Ret} (hr : r.status ≠ .success) (h : (afterCall st now r a).status = .success) : a = .ok := by
  have : (retryStep st now r).status ≠ .success := by
    unfold retryStep; split
    · exact hr
    · simp
  cases a with
  | ok => rfl
  | err => exact absurd h this
  | panic => exact absurd h this

theorem handle_success {c : Cfg} {svc start now : Nat} {ans : DEv → Bus.Ret} {r : Rec} {e : EvRow} {t : Tuple} {db : DB} (ht : t.r.id = r.id → t.r = r ∧ t.e = e) (hst : r.status ≠ .success)
    (hdb : ∀ x ∈ db.recs, x.id = r.id → x.status ≠ .success) {x : Rec} (hx : x ∈ (handle c db svc start now t ans).1.recs) (hid : x.id = r.id) (hs : x.status = .success) :
    ans e.ev = .ok ∧ (handle c db svc start now t ans).2 = some e.ev := by
  unfold handle at hx ⊢
  split at hx
  · rename_i h1
    rw [if_pos h1]
    split at hx
    · exact absurd hs (hdb x hx hid)
    · rename_i h2
      rw [if_neg h2]
      have hin : ∀ y : Rec, x ∈ (saveRec db y).recs → (x = y ∨ x ∈ db.recs) := by
        intro y hy
        simp only [saveRec, List.mem_map] at hy
        obtain ⟨z, hz, h3⟩ := hy
        split at h3
        · exact .inl h3.symm
        · rw [← h3]; exact .inr hz
      split at hx
      · rename_i h3
        rw [if_pos h3]
        rcases hin _ hx with h4 | h4
        · have hk : x.id = t.r.id := by rw [h4]; cases ans t.e.ev <;> simp [afterCall, retryStep] <;> split <;> rfl
          obtain ⟨h5, h6⟩ := ht (by rw [← hk, hid])
          rw [h4, h5, h6] at hs
          exact ⟨afterCall_success hst hs, by rw [h6]⟩
        · exact absurd hs (hdb x h4 hid)
      · rcases hin _ hx with h4 | h4
        · rw [h4] at hs hid; rw [(ht hid).1] at hs; exact absurd hs hst
        · exact absurd hs (hdb x h4 hid)
  · exact absurd hs (hdb x hx hid)

theorem handleAll_success {c : Cfg} {svc start now : Nat} {ans : Nat → DEv → Bus.Ret} {r : Rec} {e : EvRow} (hst : r.status ≠ .success) (ts : List Tuple) : ∀ (i : Nat) (db : DB),
    (∀ t ∈ ts, t.r.id = r.id → t.r = r ∧ t.e = e) → (∀ x ∈ db.recs, x.id = r.id → x.status ≠ .success) →
    ∀ x ∈ (handleAll c svc start now ans i ts db).1.recs, x.id = r.id → x.status = .success → ∃ j, ans j e.ev = .ok ∧ e.ev ∈ (handleAll c svc start now ans i ts db).2 := by
  induction ts with
  | nil => intro i db _ hdb x hx hid hs; exact absurd hs (hdb x hx hid)
  | cons t ts ih =>
    intro i db ht hdb x hx hid hs
    simp only [handleAll] at hx ⊢
    by_cases hq : ∀ x ∈ (handle c db svc start now t (ans i)).1.recs, x.id = r.id → x.status ≠ .success
    · obtain ⟨j, h1, h2⟩ := ih (i + 1) _ (fun t' h => ht t' (by simp [h])) hq x hx hid hs
      exact ⟨j, h1, List.mem_append_right _ h2⟩
    · push Not at hq
      obtain ⟨y, hy, h1, h2⟩ := hq
      obtain ⟨h3, h4⟩ := handle_success (ht t (by simp)) hst hdb hy h1 h2
      exact ⟨i, h3, List.mem_append_left _ (by rw [h4]; simp)⟩

theorem handleEvents_success {c : Cfg} {svc now : Nat} {ans : Nat → DEv → Bus.Ret} {db : DB} (hv : Valid db) (hi : Integrity db) {r : Rec} {e : EvRow} (hr : r ∈ db.recs) (he : e ∈ db.events)
    (hre : e.id = r.eventId) (hst : r.status ≠ .success) {x : Rec} (hx : x ∈ (handleEvents c svc now ans db).1.recs) (hid : x.id = r.id) (hs : x.status = .success) :
    ∃ j, ans j e.ev = .ok ∧ e.ev ∈ (handleEvents c svc now ans db).2 := by
  have hdb : ∀ x ∈ db.recs, x.id = r.id → x.status ≠ .success := by
    intro x hx hid
    rw [List.inj_on_of_nodup_map hv.recIds hx hr hid]; exact hst
  unfold handleEvents at hx ⊢
  split at hx
  · exact absurd hs (hdb x hx hid)
  · rename_i st h
    exact handleAll_success hst _ 0 db (BusMsg.scan_pair hv hi hr he hre) hdb x hx hid hs

theorem toRet_ok {a : Router.Ret} (h : toRet a = .ok) : a = .nil := by cases a <;> simp [toRet] at h ⊢

theorem play_append (env : Env) (p : Proc) (l l' : List Act) : play env p (l ++ l') = play env (play env p l) l' := List.foldl_append

/-- **C116** (1) If at every tick the engine exists and all registrations of the program have been made, a delivery that was not finished at the beginning and is finished at the end was handled: at some tick every handler the program registers
for its type was called with the event, in order, and returned nil. -/
theorem C116_handled_partial {env : Env} {prog : List RegCall} {e : EvRow} {fs : List (Fn × Nat)} (hreg : Registered (env.view e.ev).typ prog fs) (hw : ∀ q ∈ fs, WellTyped q.1)
    (acts : List Act) : ∀ {p : Proc} {r : Rec}, r.service = env.svc → r.status ≠ .success → e.id = r.eventId → ReadyAtTicks env p prog acts → (∀ a ∈ acts, Alone env.svc a) →
    Valid p.db → Integrity p.db → r ∈ p.db.recs → e ∈ p.db.events → (∃ x ∈ (play env p acts).db.recs, x.id = r.id ∧ x.status = .success) →
    ∃ pre now ns post i, acts = pre ++ .tick now ns :: post ∧ (play env p pre).alive = true ∧
      AllHandled (env.handlers now i) (env.view e.ev) fs (onEvent (env.handlers now i) (Reg.after prog) (env.view e.ev)).2 := by
  induction acts with
  | nil =>
    intro p r hs hst hre _ _ hv hi hr he ⟨x, hx, hid, h⟩
    exact absurd h (by rw [List.inj_on_of_nodup_map hv.recIds hx hr hid]; exact hst)
  | cons a acts ih =>
    intro p r hs hst hre hrd hal hv hi hr he hend
    have hend : ∃ x ∈ (play env (a.apply env p) acts).db.recs, x.id = r.id ∧ x.status = .success := hend
    have hrd' : ReadyAtTicks env (a.apply env p) prog acts := by
      intro pre now ns post h1 h2
      exact hrd (a :: pre) now ns post (by rw [h1]; rfl) h2
    have hal' : ∀ a ∈ acts, Alone env.svc a := fun a h => hal a (by simp [h])
    have lift : (∃ pre now ns post i, acts = pre ++ .tick now ns :: post ∧ (play env (a.apply env p) pre).alive = true ∧
        AllHandled (env.handlers now i) (env.view e.ev) fs (onEvent (env.handlers now i) (Reg.after prog) (env.view e.ev)).2) →
        ∃ pre now ns post i, a :: acts = pre ++ .tick now ns :: post ∧ (play env p pre).alive = true ∧
        AllHandled (env.handlers now i) (env.view e.ev) fs (onEvent (env.handlers now i) (Reg.after prog) (env.view e.ev)).2 := by
      rintro ⟨pre, now, ns, post, i, h1, h2, h3⟩
      exact ⟨a :: pre, now, ns, post, i, by rw [h1]; rfl, h2, h3⟩
    have same : (a.apply env p).db = p.db → _ := fun h =>
      lift (ih hs hst hre hrd' hal' (by rw [h]; exact hv) (by rw [h]; exact hi) (by rw [h]; exact hr) (by rw [h]; exact he) hend)
    cases a with
    | engine => apply same; simp only [Act.apply]; split <;> rfl
    | register c => apply same; simp only [Act.apply]; split <;> rfl
    | restart => exact same rfl
    | op o =>
      obtain ⟨h1, h2⟩ := BusMsg.op_keeps hv hr he hre hs hst (o := o) (hal (.op o) (by simp))
      exact lift (ih hs hst hre hrd' hal' (valid_apply hv o) (integrity_apply hv hi o) h1 h2 hend)
    | tick now ns =>
      cases hal2 : p.alive with
      | false => apply same; simp only [Act.apply, hal2]; rfl
      | true =>
        have happ : (Act.tick now ns).apply env p = tick env now ns p := by simp only [Act.apply, hal2, if_true]
        rcases tick_cases (env := env) (now := now) (ns := ns) (p := p) with h1 | ⟨h1, h2⟩ | ⟨h1, h2⟩
        · apply same; rw [happ, h1]
        · obtain ⟨h3, -⟩ := hrd [] now ns acts rfl hal2
          have h3 : p.engine = true := h3
          rw [h1] at h3; cases h3
        · obtain ⟨-, h3⟩ := hrd [] now ns acts rfl hal2
          have h3 : p.hist = prog := h3
          obtain ⟨o, ho⟩ : ∃ o : Op, o = Op.check (fun e => (ask env p now e).getD .unknown) env.svc now ns := ⟨_, rfl⟩
          have hn : BusMsg.NotRun env.svc o := by rw [ho]; trivial
          rw [← ho] at h2
          obtain ⟨h4, h5⟩ := BusMsg.op_keeps hv hr he hre hs hst (o := o) hn
          have hv1 := valid_apply hv o
          have hi1 := integrity_apply hv hi o
          generalize o.apply p.db = d at h2 h4 h5 hv1 hi1
          have hsame := same_handleEvents (c := env.cfg) (svc := env.svc) (now := now) (ans := ans env p now) hv1.recIds
          obtain ⟨x, hx, hk⟩ : ∃ x ∈ (handleEvents env.cfg env.svc now (ans env p now) d).1.recs, x.key = r.key := by
            have : r.key ∈ (handleEvents env.cfg env.svc now (ans env p now) d).1.recs.map Rec.key := by rw [hsame.keys]; exact List.mem_map_of_mem h4
            obtain ⟨x, hx, h⟩ := List.mem_map.1 this
            exact ⟨x, hx, h⟩
          obtain ⟨k1, k2, k3⟩ := Rec.key_eq.1 hk
          by_cases hxs : x.status = .success
          · obtain ⟨j, h6, h7⟩ := handleEvents_success hv1 hi1 h4 h5 hre hst hx k1 hxs
            refine ⟨[], now, ns, acts, j, rfl, hal2, ?_⟩
            have h8 := toRet_ok h6
            rw [h3] at h8
            obtain ⟨r1, r2, r3, r4⟩ := C34_routing (w := env.handlers now j) hreg hw
            rcases r4 with ⟨_, h9, h10⟩ | ⟨f, ty, y, h9, _⟩ | ⟨n, c, h9, h10, h11, h12⟩
            · refine ⟨h9, fun i f ty hf => ?_⟩
              obtain ⟨c, hc⟩ : ∃ c, (onEvent (env.handlers now j) (Reg.after prog) (env.view e.ev)).2[i]? = some c :=
                ⟨_, List.getElem?_eq_getElem (h9 ▸ (List.getElem?_eq_some_iff.1 hf).1)⟩
              obtain ⟨f', ty', q1, q2, q3⟩ := r2 i c hc
              rw [hf] at q1; cases q1
              obtain ⟨fn, arg⟩ := c
              subst q2
              exact ⟨arg, hc, q3, h10 i _ hc⟩
            · rw [h8] at h9; cases h9
            · exact absurd h8 h12
          · have hdb : ((Act.tick now ns).apply env p).db = (handleEvents env.cfg env.svc now (ans env p now) d).1 := by rw [happ, h2]
            refine lift (ih (r := x) (k2.trans hs) hxs (hre.trans k3.symm) hrd' hal' ?_ ?_ ?_ ?_ (by rw [k1]; exact hend))
            · rw [hdb]; exact hsame.valid hv1
            · rw [hdb]; exact BusMsg.integrity_same hsame hi1
            · rw [hdb]; exact hx
            · rw [hdb, hsame.events]; exact h5


/-! ## too early -/

theorem handle_stays {c : Cfg} {svc start now : Nat} {ans : DEv → Bus.Ret} {t : Tuple} {db : DB} {x : Rec} (hx : x ∈ db.recs) (hid : x.id ≠ t.r.id) : x ∈ (handle c db svc start now t ans).1.recs :=
  ((C43_others_unaffected c db svc start now t ans).2 x hid).2 hx

theorem handleAll_stays {c : Cfg} {svc start now : Nat} {ans : Nat → DEv → Bus.Ret} {x : Rec} (ts : List Tuple) : ∀ (i : Nat) (db : DB), x ∈ db.recs → (∀ t ∈ ts, x.id ≠ t.r.id) →
    x ∈ (handleAll c svc start now ans i ts db).1.recs := by
  induction ts with
  | nil => intro i db hx _; exact hx
  | cons t ts ih =>
    intro i db hx h
    simp only [handleAll]
    exact ih (i + 1) _ (handle_stays hx (h t (by simp))) (fun t' h' => h t' (by simp [h']))

theorem handleAll_done {c : Cfg} {svc start now : Nat} {ans : Nat → DEv → Bus.Ret} {r : Rec} {e : EvRow} (hst : r.status = .init) (hty : e.ev.sendType ≠ .fifo ∧ e.ev.sendType ≠ .laxFifo)
    (hans : ∀ i, ans i e.ev = .ok) (ts : List Tuple) : ∀ (i : Nat) (db : DB), (⟨r, e⟩ : Tuple) ∈ ts → ts.Pairwise (fun a b => a.r.id ≠ b.r.id) → r ∈ db.recs →
    { r with status := .success } ∈ (handleAll c svc start now ans i ts db).1.recs := by
  induction ts with
  | nil => intro i db h; simp at h
  | cons t ts ih =>
    intro i db h hp hr
    simp only [handleAll]
    have hp1 := List.pairwise_cons.1 hp
    rcases List.mem_cons.1 h with h | h
    · subst h
      apply handleAll_stays
      · have hany : (db.recs.any fun x => x.id == r.id) = true := by rw [List.any_eq_true]; exact ⟨r, hr, by simp⟩
        have hm : mayCall db svc start e = true := by simp [mayCall, hty.1, hty.2]
        simp only [handle, hany, if_true, hst, ne_eq, not_true_eq_false, if_false, hm, hans, afterCall, saveRec, List.mem_map]
        exact ⟨r, hr, by simp⟩
      · intro t ht; exact hp1.1 t ht
    · apply ih _ _ h hp1.2
      exact handle_stays hr (fun h' => hp1.1 ⟨r, e⟩ h h'.symm)

/-- the rows of a scan are different -/
theorem scan_distinct {db : DB} (hv : Valid db) (hi : Integrity db) (svc limit start now : Nat) : (scan db svc limit start now).Pairwise fun a b => a.r.id ≠ b.r.id := by
  have hw := C39_right_work hv hi svc limit start now
  refine List.Pairwise.imp_of_mem ?_ hw.ordered
  intro a b ha hb hlt heq
  have := List.inj_on_of_nodup_map hv.recIds (hw.due a ha).1 (hw.due b hb).1 heq
  rw [this] at hlt
  exact Nat.lt_irrefl _ hlt

/-- **C116** (2) A tick when the engine exists but no handler for the type has been registered yet: a due delivery of an ordinary event among the first ones is marked as successfully handled, although no function is called with it. -/
theorem C116_lost {env : Env} {now start : Nat} {ns : Nat → Nat} {p : Proc} {r : Rec} {e : EvRow} (ha : p.alive = true) (he : p.engine = true) (hnone : Registered (env.view e.ev).typ p.hist [])
    (hv : Valid p.db) (hi : Integrity p.db) (hev : e ∈ p.db.events) (hre : e.id = r.eventId) (hty : e.ev.sendType ≠ .fifo ∧ e.ev.sendType ≠ .laxFifo) (hw : IsWindowStart p.db env.cfg.window now start)
    (hdue : Due p.db env.svc start now r) (hfirst : (p.db.recs.filter fun x => decide (x.service = env.svc ∧ x.status = .init ∧ x.eventId < r.eventId)).length < env.cfg.limit)
    (htx : ∀ tx ∈ p.db.txs, tx.service = env.svc → ¬ tx.due < now) :
    { r with status := .success } ∈ ((Act.tick now ns).apply env p).db.recs ∧ ∀ i, (onEvent (env.handlers now i) (Reg.after p.hist) (env.view e.ev)).2 = [] := by
  have hon : ∀ i, onEvent (env.handlers now i) (Reg.after p.hist) (env.view e.ev) = (.nil, []) := by
    intro i
    unfold onEvent
    rw [registered_handlers hnone]; rfl
  refine ⟨?_, fun i => by rw [hon]⟩
  have hf : (p.db.txs.filter fun t => t.service == env.svc && decide (t.due < now)) = [] := by
    rw [List.filter_eq_nil_iff]
    intro t ht h
    simp only [Bool.and_eq_true, beq_iff_eq, decide_eq_true_eq] at h
    exact htx t ht h.1 h.2
  have happ : (Act.tick now ns).apply env p = { p with db := (handleEvents env.cfg env.svc now (ans env p now) p.db).1 } := by
    simp only [Act.apply, ha, if_true, tick, BusLife.handleTxsP, hf, List.foldlM_nil, he]
    rfl
  rw [happ]
  show _ ∈ (handleEvents env.cfg env.svc now (ans env p now) p.db).1.recs
  unfold handleEvents
  rw [C39_window_start.2 hw]
  have hrw := C39_right_work hv hi env.svc env.cfg.limit start now
  have hmem : r ∈ (scan p.db env.svc env.cfg.limit start now).map Tuple.r := by
    by_contra hc
    obtain ⟨h1, h2⟩ := hrw.first r hdue hc
    have hle : (scan p.db env.svc env.cfg.limit start now).length ≤ (p.db.recs.filter fun x => decide (x.service = env.svc ∧ x.status = .init ∧ x.eventId < r.eventId)).length := by
      have hnd : ((scan p.db env.svc env.cfg.limit start now).map Tuple.r).Nodup := by
        rw [List.nodup_iff_pairwise_ne, List.pairwise_map]
        exact (scan_distinct hv hi env.svc env.cfg.limit start now).imp fun h h' => h (by rw [h'])
      have hsub : ((scan p.db env.svc env.cfg.limit start now).map Tuple.r) ⊆ (p.db.recs.filter fun x => decide (x.service = env.svc ∧ x.status = .init ∧ x.eventId < r.eventId)) := by
        intro x hx
        obtain ⟨t, ht, rfl⟩ := List.mem_map.1 hx
        obtain ⟨q1, q2, q3, -⟩ := hrw.due t ht
        exact List.mem_filter.2 ⟨q1, by simp [q2, q3, h2 t ht]⟩
      have := (hnd.subperm hsub).length_le
      rwa [List.length_map] at this
    omega
  obtain ⟨t, ht, htr⟩ := List.mem_map.1 hmem
  have hte : t = ⟨r, e⟩ := by
    obtain ⟨h1, h2⟩ := BusMsg.scan_pair hv hi hdue.1 hev hre t ht (by rw [htr])
    cases t; simp_all
  rw [hte] at ht
  exact handleAll_done hdue.2.2.1 hty (fun i => by simp only [ans, hon]; rfl) _ 0 _ ht (scan_distinct hv hi _ _ _ _) hdue.1

/-- never pending again -/
theorem op_settled {db : DB} (hv : Valid db) {svc i : Nat} (hi : i < db.nextEv) (h : ∀ r ∈ db.recs, r.service = svc → r.eventId = i → r.status ≠ .init) (o : Op) :
    (∀ r ∈ (o.apply db).recs, r.service = svc → r.eventId = i → r.status ≠ .init) ∧ i < (o.apply db).nextEv := by
  have added : ∀ {tid : Nat} {d d' : DB}, i < d.nextEv → (∀ r ∈ d.recs, r.service = svc → r.eventId = i → r.status ≠ .init) → Added tid d d' →
      (∀ r ∈ d'.recs, r.service = svc → r.eventId = i → r.status ≠ .init) ∧ i < d'.nextEv := by
    intro tid d d' hi h hd
    obtain ⟨rs, h1, h2⟩ := hd.recs
    refine ⟨fun r hr hs he => ?_, lt_of_lt_of_le hi hd.nextEv⟩
    rw [h1] at hr
    rcases List.mem_append.1 hr with hr | hr
    · exact h r hr hs he
    · have := h2 r hr; omega
  have commit : ∀ (d : DB) (tx : TxRow) (n : Nat), i < d.nextEv → (∀ r ∈ d.recs, r.service = svc → r.eventId = i → r.status ≠ .init) →
      (∀ r ∈ (commit d tx n).1.recs, r.service = svc → r.eventId = i → r.status ≠ .init) ∧ i < (commit d tx n).1.nextEv := by
    intro d tx n hi h
    rcases commit_cases d tx n with h' | ⟨d', hd, h' | h'⟩
    · rw [h']; exact ⟨h, hi⟩
    · rw [h']; exact added hi h hd
    · rw [h']; exact ⟨(added hi h hd).1, (added hi h hd).2⟩
  cases o with
  | dispatch es n => exact added hi h (added_dispatch db 0 es n)
  | begin s now timeout es ok =>
    simp only [Op.apply, dispatchBegin]
    split
    · exact ⟨h, hi⟩
    · split <;> exact ⟨h, hi⟩
  | commit tx n =>
    simp only [Op.apply]
    split
    · exact commit db tx n hi h
    · exact ⟨h, hi⟩
  | rollback tx ok =>
    simp only [Op.apply, rollback]
    split
    · split <;> exact ⟨h, hi⟩
    · exact ⟨h, hi⟩
  | check ask s now ns =>
    simp only [Op.apply, handleTxs]
    generalize (db.txs.filter _) = l
    clear hv
    induction l generalizing db with
    | nil => exact ⟨h, hi⟩
    | cons t l ih =>
      have : (∀ r ∈ (checkTx ask db t (ns t.id)).recs, r.service = svc → r.eventId = i → r.status ≠ .init) ∧ i < (checkTx ask db t (ns t.id)).nextEv := by
        unfold checkTx
        split
        · exact ⟨h, hi⟩
        · split
          · exact ⟨h, hi⟩
          · exact commit db t _ hi h
          · unfold rollback
            split <;> exact ⟨h, hi⟩
      exact ih this.2 this.1
  | register s =>
    simp only [Op.apply, register]
    split <;> exact ⟨h, hi⟩
  | run c s now ans =>
    have hs := same_handleEvents (c := c) (svc := s) (now := now) (ans := ans) hv.recIds
    refine ⟨?_, by simp only [Op.apply]; rw [hs.nextEv]; exact hi⟩
    intro r hr h1 h2
    obtain ⟨x, hx, hk⟩ := mem_of_keys hs.keys hr
    obtain ⟨k1, k2, k3⟩ := Rec.key_eq.1 hk
    have hx0 : x.status ≠ .init := h x hx (k2.trans h1) (k3.trans h2)
    have hxr : x ∈ (handleEvents c s now ans db).1.recs := by
      unfold handleEvents
      split
      · exact hx
      · apply handleAll_stays _ _ _ hx
        intro t ht heq
        have hm := mem_scanRecs (mem_pairUp ht).1
        have := List.inj_on_of_nodup_map hv.recIds hx hm.1 heq
        rw [this] at hx0
        exact hx0 hm.2.2.1
    have hnd : ((handleEvents c s now ans db).1.recs.map Rec.id).Nodup := (hs.valid hv).recIds
    rw [← List.inj_on_of_nodup_map hnd hxr hr k1]
    exact hx0
  | clean c s now =>
    have hs := removed_clean (c := c) (svc := s) (now := now) (db := db)
    exact ⟨fun r hr => h r (hs.recs.subset hr), by simp only [Op.apply]; rw [hs.nextEv]; exact hi⟩

/-- **C116** (3) … and it is lost for good: whatever happens afterwards (the handlers are registered, the process is started again, other instances run), there is never again a pending delivery of it. -/
theorem C116_lost_forever {env : Env} {svc i : Nat} (acts : List Act) : ∀ {p : Proc}, Valid p.db → i < p.db.nextEv → (∀ r ∈ p.db.recs, r.service = svc → r.eventId = i → r.status ≠ .init) →
    ∀ r ∈ (play env p acts).db.recs, r.service = svc → r.eventId = i → r.status ≠ .init := by
  induction acts with
  | nil => intro p _ _ h; exact h
  | cons a acts ih =>
    intro p hv hi h
    show ∀ r ∈ (play env (a.apply env p) acts).db.recs, _
    have same : (a.apply env p).db = p.db → ∀ r ∈ (play env (a.apply env p) acts).db.recs, r.service = svc → r.eventId = i → r.status ≠ .init := fun h1 =>
      ih (by rw [h1]; exact hv) (by rw [h1]; exact hi) (by rw [h1]; exact h)
    cases a with
    | engine => apply same; simp only [Act.apply]; split <;> rfl
    | register c => apply same; simp only [Act.apply]; split <;> rfl
    | restart => exact same rfl
    | op o =>
      obtain ⟨h1, h2⟩ := op_settled hv hi h o
      exact ih (valid_apply hv o) h2 h1
    | tick now ns =>
      cases hal2 : p.alive with
      | false => apply same; simp only [Act.apply, hal2]; rfl
      | true =>
        have happ : (Act.tick now ns).apply env p = tick env now ns p := by simp only [Act.apply, hal2, if_true]
        have hc := op_settled hv hi h (Op.check (fun e => (ask env p now e).getD .unknown) env.svc now ns)
        have hvc := valid_apply hv (Op.check (fun e => (ask env p now e).getD .unknown) env.svc now ns)
        rcases tick_cases (env := env) (now := now) (ns := ns) (p := p) with h1 | ⟨h1, h2⟩ | ⟨h1, h2⟩
        · apply same; rw [happ, h1]
        · have hdb : ((Act.tick now ns).apply env p).db = (Op.check (fun e => (ask env p now e).getD .unknown) env.svc now ns).apply p.db := by rw [happ, h2]
          exact ih (by rw [hdb]; exact hvc) (by rw [hdb]; exact hc.2) (by rw [hdb]; exact hc.1)
        · have hr := op_settled hvc hc.2 hc.1 (.run env.cfg env.svc now (ans env p now))
          have hvr := valid_apply hvc (.run env.cfg env.svc now (ans env p now))
          have hdb : ((Act.tick now ns).apply env p).db = (Op.run env.cfg env.svc now (ans env p now)).apply ((Op.check (fun e => (ask env p now e).getD .unknown) env.svc now ns).apply p.db) := by rw [happ, h2]; rfl
          exact ih (by rw [hdb]; exact hvr) (by rw [hdb]; exact hr.2) (by rw [hdb]; exact hr.1)

/-- **C116** (4) A tick before `NewEngine` ends the process as soon as a transaction of the service is overdue, and leaves the tables as they are, so that the next start meets the same. -/
theorem C116_dies {env : Env} {now : Nat} {ns : Nat → Nat} {p : Proc} (ha : p.alive = true) (he : p.engine = false) {tx : TxRow} (htx : tx ∈ p.db.txs) (hs : tx.service = env.svc) (hd : tx.due < now) :
    (Act.tick now ns).apply env p = { p with alive := false } := by
  have : BusLife.handleTxsP (ask env p now) env.svc now ns p.db = none := by
    unfold BusLife.handleTxsP
    refine BusLife.foldlM_none _ _ tx (List.mem_filter.2 ⟨htx, by simp [hs, hd]⟩) (fun d => ?_) _
    simp only [BusLife.checkTxP]
    cases tx.events with
    | nil => rfl
    | cons e es => simp [ask, he]
  simp only [Act.apply, ha, if_true, tick, this]

theorem checkTx_txs (ask : DEv → TxAns) (db : DB) (t : TxRow) (n : Nat) : ∀ x ∈ (checkTx ask db t n).txs, x ∈ db.txs := by
  intro x hx
  unfold checkTx at hx
  split at hx
  · exact hx
  · split at hx
    · exact hx
    · rcases commit_cases db t n with h | ⟨d, hd, h | h⟩
      · rw [h] at hx; exact hx
      · rw [h, hd.txs] at hx; exact hx
      · rw [h] at hx; simp only [deleteTx, List.mem_filter, hd.txs] at hx; exact hx.1
    · unfold rollback at hx
      split at hx
      · simp only [deleteTx, List.mem_filter] at hx; exact hx.1
      · exact hx

theorem checkTx_events (ask : DEv → TxAns) (db : DB) (t : TxRow) (n : Nat) : ∀ x ∈ (checkTx ask db t n).events, x ∈ db.events ∨ (x.transId = t.id ∧ ∃ e es, t.events = e :: es ∧ ask e = .commit) := by
  intro x hx
  unfold checkTx at hx
  split at hx
  · exact .inl hx
  · rename_i e es he
    split at hx
    · exact .inl hx
    · rename_i ha
      have key : ∀ d, Added t.id db d → x ∈ d.events → x ∈ db.events ∨ (x.transId = t.id ∧ ∃ e es, t.events = e :: es ∧ ask e = .commit) := by
        intro d hd hx
        obtain ⟨ps, h1, h2⟩ := hd.events
        rw [h1] at hx
        rcases List.mem_append.1 hx with hx | hx
        · exact .inl hx
        · exact .inr ⟨(h2 x hx).1, e, es, he, ha⟩
      rcases commit_cases db t n with h | ⟨d, hd, h | h⟩
      · rw [h] at hx; exact .inl hx
      · rw [h] at hx; exact key d hd hx
      · rw [h] at hx; exact key d hd hx
    · unfold rollback at hx
      split at hx <;> exact .inl hx

theorem txs_rollback {ask : DEv → TxAns} {ns : Nat → Nat} {tx : TxRow} {e : DEv} {es : List DEv} (he : tx.events = e :: es) (ha : ask e = .rollback) (hn : 0 < ns tx.id) (l : List TxRow)
    (huniq : ∀ t ∈ l, t.id = tx.id → t = tx) : ∀ (db : DB), (∀ x ∈ db.events, x.transId ≠ tx.id) →
    (∀ x ∈ (l.foldl (fun d t => checkTx ask d t (ns t.id)) db).events, x.transId ≠ tx.id) ∧
    (∀ x ∈ (l.foldl (fun d t => checkTx ask d t (ns t.id)) db).txs, x ∈ db.txs) ∧ (tx ∈ l → ∀ x ∈ (l.foldl (fun d t => checkTx ask d t (ns t.id)) db).txs, x.id ≠ tx.id) := by
  induction l with
  | nil => intro db h; exact ⟨h, fun x hx => hx, fun h => by simp at h⟩
  | cons t l ih =>
    intro db h
    rw [List.foldl_cons]
    have h1 : ∀ x ∈ (checkTx ask db t (ns t.id)).events, x.transId ≠ tx.id := by
      intro x hx
      rcases checkTx_events ask db t (ns t.id) x hx with h2 | ⟨h2, e', es', h3, h4⟩
      · exact h x h2
      · intro hc
        have := huniq t (by simp) (by rw [← h2, hc])
        rw [this, he] at h3
        cases h3
        rw [ha] at h4; cases h4
    obtain ⟨q1, q2, q3⟩ := ih (fun t h => huniq t (by simp [h])) _ h1
    refine ⟨q1, fun x hx => checkTx_txs _ _ _ _ x (q2 x hx), ?_⟩
    intro hm x hx
    rcases List.mem_cons.1 hm with hm | hm
    · have h2 := q2 x hx
      rw [← hm] at h2
      simp only [checkTx, he, ha, rollback, hn, decide_true, if_true, deleteTx, List.mem_filter, decide_eq_true_eq] at h2
      exact h2.2
    · exact q3 hm x hx

/-- **C116** (5) A tick when the engine exists but no checker for the type has been registered yet: an overdue transaction is rolled back without asking anybody (if the tick gets through): its row is gone and its events are not stored, even if
the command that opened it was committed. -/
theorem C116_rolled_back {env : Env} {now : Nat} {ns : Nat → Nat} {p : Proc} {tx : TxRow} {e : DEv} {es : List DEv} (ha : p.alive = true) (he : p.engine = true)
    (hnone : ∀ f ty, .checker (env.view e).typ f ∈ p.hist → ¬ CheckerFor f ty) (hv : Valid p.db) (htx : tx ∈ p.db.txs) (hs : tx.service = env.svc) (hd : tx.due < now) (hev : tx.events = e :: es)
    (hnew : ∀ x ∈ p.db.events, x.transId ≠ tx.id) (hn : 0 < ns tx.id) (hok : ((Act.tick now ns).apply env p).alive = true) :
    (∀ x ∈ ((Act.tick now ns).apply env p).db.txs, x.id ≠ tx.id) ∧ (∀ x ∈ ((Act.tick now ns).apply env p).db.events, x.transId ≠ tx.id) ∧
    (onTXChecker (env.checkers now) (Reg.after p.hist) (env.view e)).2 = [] := by
  have hc := C35_no_checker (w := env.checkers now) hnone
  refine and_assoc.1 ⟨?_, by rw [hc]⟩
  have happ : (Act.tick now ns).apply env p = tick env now ns p := by simp only [Act.apply, ha, if_true]
  rw [happ] at hok ⊢
  have hask : (fun e => (ask env p now e).getD .unknown) e = .rollback := by simp [ask, he, hc, toAns]
  have hvc := valid_apply hv (Op.check (fun e => (ask env p now e).getD .unknown) env.svc now ns)
  have key := txs_rollback (ask := fun e => (ask env p now e).getD .unknown) (ns := ns) hev hask hn (p.db.txs.filter fun t => t.service == env.svc && decide (t.due < now))
    (fun t ht hid => List.inj_on_of_nodup_map hv.txIds (List.mem_filter.1 ht).1 htx hid) p.db hnew
  have hm : tx ∈ p.db.txs.filter fun t => t.service == env.svc && decide (t.due < now) := List.mem_filter.2 ⟨htx, by simp [hs, hd]⟩
  rcases tick_cases (env := env) (now := now) (ns := ns) (p := p) with h1 | ⟨h1, h2⟩ | ⟨h1, h2⟩
  · rw [h1] at hok; cases hok
  · rw [he] at h1; cases h1
  · have hsame := same_handleEvents (c := env.cfg) (svc := env.svc) (now := now) (ans := ans env p now) hvc.recIds
    rw [h2]
    constructor
    · intro x hx
      rw [hsame.txs] at hx
      exact key.2.2 hm x hx
    · intro x hx
      rw [hsame.events] at hx
      exact key.1 x hx

/-! ## concrete cases: the order of `example/main.go` and the right one -/
namespace Demo

def env : Env := ⟨⟨1000, 100, 0, limitRetry 10⟩, 7, fun e => ⟨10, e.body⟩, fun _ _ => Router.Demo.world, fun _ => Router.Demo.world⟩
def handler : RegCall := .handler 10 (Router.Demo.goodFn 1 0)
def checker : RegCall := .checker 10 (Router.Demo.ck 2 5)
/-- two deliveries are waiting when the process starts -/
def waiting : Proc := ⟨BusMsg.Demo.db, false, [], true⟩
/-- a transaction is overdue when the process starts -/
def overdue : Proc := ⟨(Op.begin 7 10 60 [BusMsg.Demo.ev 3] true).apply BusMsg.Demo.db, false, [], true⟩
def tx : TxRow := ⟨1, 7, [BusMsg.Demo.ev 3], 70⟩

theorem shape : Registered 10 [handler, checker] [(Router.Demo.goodFn 1 0, 0)] :=
  .checker (cs := [handler]) (.here (cs := []) (fs := []) .none ⟨rfl, _, _, _, rfl, rfl, rfl, rfl, rfl, rfl⟩)

/-- registered first: handled -/
example : ∃ pre now ns post i, [Act.engine, .register handler, .register checker, .tick 20 fun _ => 100] = pre ++ .tick now ns :: post ∧ (play env waiting pre).alive = true ∧
    AllHandled (env.handlers now i) (env.view BusMsg.Demo.e1.ev) [(Router.Demo.goodFn 1 0, 0)] (onEvent (env.handlers now i) (Reg.after [handler, checker]) (env.view BusMsg.Demo.e1.ev)).2 := by
  refine C116_handled_partial (prog := [handler, checker]) (e := BusMsg.Demo.e1) (fs := [(Router.Demo.goodFn 1 0, 0)]) shape (by intro q hq; simp at hq; subst hq; exact wellTyped_iff.2 ⟨rfl, rfl⟩)
    [.engine, .register handler, .register checker, .tick 20 fun _ => 100] (p := waiting) (r := BusMsg.Demo.r1) rfl (by decide) rfl ?_ (by intro a ha; fin_cases ha <;> trivial)
    BusMsg.Demo.valid.1 BusMsg.Demo.valid.2 BusMsg.Demo.there.1 BusMsg.Demo.there.2 ⟨{ BusMsg.Demo.r1 with status := .success }, by decide +kernel, rfl, rfl⟩
  intro pre now ns post h _
  rcases pre with _ | ⟨a, _ | ⟨b, _ | ⟨c, _ | ⟨d, pre⟩⟩⟩⟩ <;> simp at h
  obtain ⟨rfl, rfl, rfl, -⟩ := h
  exact ⟨rfl, rfl⟩

/-- the order of the example, a tick between `NewEngine` and the registration: both deliveries are marked as handled, and a later tick with the handler has nothing to do -/
example : ({ BusMsg.Demo.r1 with status := .success } ∈ ((Act.tick 20 fun _ => 100).apply env { waiting with engine := true }).db.recs) ∧
    ∀ r ∈ (play env ((Act.tick 20 fun _ => 100).apply env { waiting with engine := true }) [.register handler, .tick 30 (fun _ => 100), .restart, .engine, .register handler, .tick 40 fun _ => 100]).db.recs,
      r.service = 7 → r.eventId = 1 → r.status ≠ .init := by
  refine ⟨(C116_lost (env := env) (p := { waiting with engine := true }) (e := BusMsg.Demo.e1) (start := 1) rfl rfl .none BusMsg.Demo.valid.1 BusMsg.Demo.valid.2 BusMsg.Demo.there.2 rfl
    ⟨by decide, by decide⟩ (BusMsg.Demo.start 20 (by decide)) (BusMsg.Demo.dueRecs 20 (by decide)).1 (by decide) (by intro t ht; simp [waiting, BusMsg.Demo.db, dispatch, emptyDB, insertAllRecs, insertRecs, insertEvents, BusMsg.Demo.ev] at ht)).1, ?_⟩
  refine C116_lost_forever _ ?_ (by decide +kernel) (by decide +kernel)
  rcases tick_cases (env := env) (now := 20) (ns := fun _ => 100) (p := { waiting with engine := true }) with h | ⟨h, -⟩ | ⟨-, h⟩
  · show Valid (tick env 20 (fun _ => 100) { waiting with engine := true }).db
    rw [h]; exact BusMsg.Demo.valid.1
  · cases h
  · show Valid (tick env 20 (fun _ => 100) { waiting with engine := true }).db
    rw [h]
    exact valid_apply (valid_apply BusMsg.Demo.valid.1 _) (.run env.cfg env.svc 20 _)

/-- a tick between `Start` and `NewEngine`, with an overdue transaction: dead -/
example : ((Act.tick 80 fun _ => 100).apply env overdue).alive = false := by
  rw [C116_dies (tx := tx) rfl rfl (by decide) rfl (by decide)]

/-- a tick between `NewEngine` and the registration of the checker: rolled back; with the checker (which answers commit) the event is stored -/
example : (∀ x ∈ ((Act.tick 80 fun _ => 100).apply env { overdue with engine := true, hist := [handler] }).db.txs, x.id ≠ 1) ∧
    (∀ x ∈ ((Act.tick 80 fun _ => 100).apply env { overdue with engine := true, hist := [handler] }).db.events, x.transId ≠ 1) :=
  let h := C116_rolled_back (env := env) (ns := fun _ => 100) (p := { overdue with engine := true, hist := [handler] }) (tx := tx) (now := 80) (e := BusMsg.Demo.ev 3) (es := []) rfl rfl
    (by intro f ty h; simp [handler] at h) (valid_apply BusMsg.Demo.valid.1 (.begin 7 10 60 [BusMsg.Demo.ev 3] true)) (by decide) rfl (by decide) rfl (by decide) (by decide) (by decide +kernel)
  ⟨h.1, h.2.1⟩
example : (((Act.tick 80 fun _ => 100).apply env { overdue with engine := true, hist := [handler, checker] }).db.events.map fun x => (x.ev.evId, x.transId)) = [(11, 0), (12, 0), (13, 1)] := by decide +kernel

end Demo

end Ddd.Startup
