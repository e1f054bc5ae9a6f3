import Verif.Spec.BusFifo
import Verif.Props.BusSeq
import Mathlib.Data.List.Induction
import Mathlib.Data.List.Nodup
/-!
# C104: without overlap, the events of a FIFO sender are handled in order, each once, without gaps
-/
set_option linter.unusedVariables false
set_option linter.unusedSimpArgs false
namespace Ddd.Bus

/-! ## histories -/

theorem inTime_append {c : Cfg} {q : List Op} : ∀ {p : List Op} {t : Nat}, InTime c t (p ++ q) → InTime c t p := by
  intro p
  induction p with
  | nil => intro t _; exact trivial
  | cons op p ih => intro t h; cases op <;> simp only [List.cons_append, InTime] at h ⊢ <;> grind

theorem inTime_run {c : Cfg} {p q : List Op} {c' : Cfg} {svc now : Nat} {ans : Nat → DEv → Ret} {k : Nat} (hk : k ≤ c'.limit) : ∀ {t : Nat}, InTime c t (p ++ .run c' svc now ans :: q) →
    Stops c c' ∧ InTime c t (p ++ [.run { c' with limit := k } svc now ans]) := by
  induction p with
  | nil =>
    intro t h
    simp only [List.nil_append, InTime] at h ⊢
    obtain ⟨⟨m, hm, rfl⟩, h2, h3⟩ := h
    exact ⟨⟨m, hm, rfl⟩, ⟨k, Nat.le_trans hk hm, rfl⟩, h2, trivial⟩
  | cons op p ih => intro t h; cases op <;> simp only [List.cons_append, InTime] at h ⊢ <;> grind

theorem runOps_append (db : DB) (p q : List Op) : runOps db (p ++ q) = runOps (runOps db p) q := List.foldl_append ..

theorem opsLog_append (p q : List Op) : ∀ db, opsLog db (p ++ q) = opsLog (runOps db p) q ++ opsLog db p := by
  induction p with
  | nil => intro db; simp [opsLog, runOps]
  | cons op p ih => intro db; simp [opsLog, runOps, ih]

/-- what is known of the database and the log of a history -/
structure Base (c : Cfg) (db : DB) (log : List Log) : Prop where
  valid : Valid db
  integrity : Integrity db
  stored : ∀ svc eid, .stored svc eid ∈ log → (∃ r ∈ db.recs, r.service = svc ∧ r.eventId = eid) ∨ HandledOk log svc eid
  rows : ∀ r ∈ db.recs, Backed c.strategy log r
  noExpired : ∀ x ∈ log, ∀ a b, x ≠ .expired a b
  again : ∀ svc eid, log.Pairwise fun later earlier => (∃ e t, earlier = .returned svc eid e .ok t true) → ∀ e t, later ≠ .called svc eid e t
  own : ∀ svc i e t, .called svc i e t ∈ log → e.id = i

theorem integrity_runOps (ops : List Op) : ∀ {db : DB}, Valid db → Integrity db → Integrity (runOps db ops) := by
  induction ops with
  | nil => intro db _ h; exact h
  | cons op ops ih => intro db hv h; exact ih (valid_apply hv op) (integrity_apply hv h op)

theorem base {c : Cfg} (hcount : Counting c.strategy) {ops : List Op} (h : InTime c 0 ops) : Base c (runOps (emptyDB []) ops) (opsLog (emptyDB []) ops) := by
  obtain ⟨t, hr⟩ := C102_execution h
  have hv := valid_emptyDB (ss := []) List.nodup_nil
  have hs := safe_reachable (by rfl) hcount hr
  exact ⟨valid_runOps hv ops, integrity_runOps ops hv (by intro r hr; simp [emptyDB] at hr), hs.stored, hs.rows, no_expired (by rfl) hr, fun svc eid => C46_not_again_partial (by rfl) hr svc eid,
    fun svc i e t he => C40_own_event_partial (by rfl) hcount hr he⟩

/-! ## the invariant -/

/-- `R`: the rows of the events of the sender, in the order in which they were dispatched -/
structure FInv (σ svc : Nat) (db : DB) (log : List Log) (R : List EvRow) : Prop where
  sorted : R.Pairwise fun a b => a.id < b.id
  before : R.Pairwise Before
  fifo : ∀ a ∈ R, a.ev.sendType = .fifo ∧ a.ev.sender = σ
  fresh : ∀ a ∈ R, a.id < db.nextEv
  has : ∀ e ∈ db.events, e.ev.sender = σ → e ∈ R
  same : ∀ e ∈ db.events, ∀ a ∈ R, e.id = a.id → e = a
  stored : ∀ a ∈ R, .stored svc a.id ∈ log
  logged : ∀ i e r t v, .returned svc i e r t v ∈ log → v = true ∧ i = e.id ∧ e.id < db.nextEv ∧ ∀ a ∈ R, e.id = a.id → e = a
  done : handledOf σ svc log <+: R
  next : ∀ l1 l2 i e t, log = l1 ++ .called svc i e t :: l2 → e.ev.sender = σ → (handledOf σ svc l2 ++ [e]) <+: R

theorem handledOf_append (σ svc : Nat) (l l' : List Log) : handledOf σ svc (l ++ l') = handledOf σ svc l' ++ handledOf σ svc l := by
  simp [handledOf]

theorem handledOf_quiet {σ svc : Nat} {l : List Log} (h : ∀ x ∈ l, ∃ a b, x = .stored a b) : handledOf σ svc l = [] := by
  unfold handledOf
  rw [List.filterMap_eq_nil_iff]
  intro x hx
  obtain ⟨a, b, rfl⟩ := h x (List.mem_reverse.1 hx)
  rfl

theorem mem_handledOf {σ svc : Nat} {log : List Log} {e : EvRow} : e ∈ handledOf σ svc log ↔ e.ev.sender = σ ∧ ∃ i t v, .returned svc i e .ok t v ∈ log := by
  simp only [handledOf, List.mem_filterMap, List.mem_reverse]
  constructor
  · rintro ⟨x, hx, h⟩
    split at h
    · split at h
      · rename_i hs
        cases h
        obtain ⟨rfl, hs⟩ := hs
        exact ⟨hs, _, _, _, hx⟩
      · cases h
    · cases h
  · rintro ⟨hs, i, t, v, hx⟩
    exact ⟨_, hx, by simp [hs]⟩

theorem FInv.handled {σ svc : Nat} {db : DB} {log : List Log} {R : List EvRow} (h : FInv σ svc db log R) {a : EvRow} (ha : a ∈ R) : HandledOk log svc a.id ↔ a ∈ handledOf σ svc log := by
  rw [mem_handledOf]
  constructor
  · rintro ⟨x, hx, hok⟩
    cases x <;> simp [Log.isOk] at hok
    rename_i s i e r t v
    obtain ⟨rfl, rfl, hi, rfl⟩ := hok
    have := (h.logged _ _ _ _ _ hx).2.2.2 a ha hi
    subst this
    exact ⟨(h.fifo _ ha).2, _, _, _, hx⟩
  · rintro ⟨-, i, t, v, hx⟩
    have := (h.logged _ _ _ _ _ hx).2.1
    exact ⟨_, hx, by simp [Log.isOk, this]⟩

/-- an operation that calls no handlers -/
theorem FInv.grow {σ svc : Nat} {db db' : DB} {log l : List Log} {R new newR : List EvRow} (h : FInv σ svc db log R) (hv : Valid db) (hl : ∀ x ∈ l, ∃ a b, x = .stored a b) (hn : db.nextEv ≤ db'.nextEv)
    (hev : ∀ e ∈ db'.events, e ∈ db.events ∨ e ∈ new) (hnew : ∀ e ∈ new, db.nextEv ≤ e.id) (hsub : ∀ a ∈ newR, a ∈ new ∧ a.id < db'.nextEv) (hall : ∀ e ∈ new, e.ev.sender = σ → e ∈ newR)
    (hone : ∀ e ∈ new, ∀ a ∈ newR, e.id = a.id → e = a) (hsorted : newR.Pairwise fun a b => a.id < b.id) (hbefore : (R ++ newR).Pairwise Before) (hfifo : ∀ a ∈ newR, a.ev.sendType = .fifo ∧ a.ev.sender = σ)
    (hstored : ∀ a ∈ newR, .stored svc a.id ∈ l) : FInv σ svc db' (l ++ log) (R ++ newR) := by
  have hpre : R <+: R ++ newR := List.prefix_append ..
  refine ⟨?_, hbefore, ?_, ?_, ?_, ?_, ?_, ?_, ?_, ?_⟩
  · rw [List.pairwise_append]
    refine ⟨h.sorted, hsorted, ?_⟩
    intro a ha b hb
    have := h.fresh a ha
    have := hnew b (hsub b hb).1
    omega
  · intro a ha
    rcases List.mem_append.1 ha with ha | ha
    · exact h.fifo a ha
    · exact hfifo a ha
  · intro a ha
    rcases List.mem_append.1 ha with ha | ha
    · have := h.fresh a ha; omega
    · exact (hsub a ha).2
  · intro e he hs
    rcases hev e he with he | he
    · exact List.mem_append_left _ (h.has e he hs)
    · exact List.mem_append_right _ (hall e he hs)
  · intro e he a ha hi
    rcases hev e he with he | he <;> rcases List.mem_append.1 ha with ha | ha
    · exact h.same e he a ha hi
    · have h1 := hnew a (hsub a ha).1
      have h2 := hv.evFresh e he
      omega
    · have := h.fresh a ha
      have := hnew e he
      omega
    · exact hone e he a ha hi
  · intro a ha
    rcases List.mem_append.1 ha with ha | ha
    · exact List.mem_append_right _ (h.stored a ha)
    · exact List.mem_append_left _ (hstored a ha)
  · intro i e r t v hx
    rcases List.mem_append.1 hx with hx | hx
    · obtain ⟨a, b, h1⟩ := hl _ hx; cases h1
    · obtain ⟨h0, h1, h2, h3⟩ := h.logged i e r t v hx
      refine ⟨h0, h1, by omega, ?_⟩
      intro a ha hi
      rcases List.mem_append.1 ha with ha | ha
      · exact h3 a ha hi
      · have := hnew a (hsub a ha).1; omega
  · rw [handledOf_append, handledOf_quiet hl, List.append_nil]
    exact h.done.trans hpre
  · intro l1 l2 i e t hlog hs
    obtain ⟨m, rfl, hm⟩ | ⟨m, rfl, hm⟩ := List.append_eq_append_iff.1 hlog
    · exact (h.next m l2 i e t hm hs).trans hpre
    · cases m with
      | nil => exact (h.next [] l2 i e t (by simpa using hm.symm) hs).trans hpre
      | cons x m =>
        simp only [List.cons_append, List.cons.injEq] at hm
        obtain ⟨a, b, h1⟩ := hl (.called svc i e t) (by rw [hm.1]; simp)
        cases h1

/-- the handler is called for the next event only -/
theorem call_next {c : Cfg} {σ svc start : Nat} {db : DB} {log : List Log} {R : List EvRow} (h : FInv σ svc db log R) (hb : Base c db log) {e : EvRow} (he : e ∈ db.events) (hs : e.ev.sender = σ)
    (hm : mayCall db svc start e = true) (hw : ∀ p ∈ R, p ∈ db.events → p.id < start → HandledOk log svc p.id) (hnot : e ∉ handledOf σ svc log) : (handledOf σ svc log ++ [e]) <+: R := by
  obtain ⟨T, hT⟩ := h.done
  have heR := h.has e he hs
  have hnd : (handledOf σ svc log ++ T).Pairwise fun a b => a.id < b.id := by rw [hT]; exact h.sorted
  have hbf : (handledOf σ svc log ++ T).Pairwise Before := by rw [hT]; exact h.before
  have heT : e ∈ T := by
    rw [← hT] at heR
    exact (List.mem_append.1 heR).resolve_left hnot
  cases T with
  | nil => simp at heT
  | cons x T =>
    suffices hx : x = e by
      subst hx
      exact ⟨T, by rw [← hT]; simp⟩
    by_contra hne
    have heT' : e ∈ T := (List.mem_cons.1 heT).resolve_left fun h => hne h.symm
    have hxR : x ∈ R := by rw [← hT]; simp
    -- rows from `x` on are not handled
    have hun : ∀ a ∈ R, x.id ≤ a.id → ¬ HandledOk log svc a.id := by
      intro a ha hle hh
      rw [h.handled ha] at hh
      have := (List.pairwise_append.1 hnd).2.2 a hh x (by simp)
      omega
    have hxe : x.id < e.id := (List.pairwise_cons.1 (List.pairwise_append.1 hnd).2.1).1 e heT'
    have hxb : Before x e := (List.pairwise_cons.1 (List.pairwise_append.1 hbf).2.1).1 e heT'
    have hkept : ∀ a ∈ R, x.id ≤ a.id → a ∈ db.events ∧ ∃ r ∈ db.recs, r.service = svc ∧ r.eventId = a.id := by
      intro a ha hle
      rcases hb.stored svc a.id (h.stored a ha) with ⟨r, hr, h1, h2⟩ | h1
      · obtain ⟨e', he', hi⟩ := hb.integrity r hr
        have := h.same e' he' a ha (hi.trans h2)
        subst this
        exact ⟨he', r, hr, h1, h2⟩
      · exact absurd h1 (hun a ha hle)
    have hf := (h.fifo e heR).1
    have hEx : Earlier db e x := by
      refine ⟨(hkept x hxR (Nat.le_refl _)).1, by rw [(h.fifo x hxR).2, hs], ?_, hxe⟩
      unfold Before at hxb; omega
    unfold mayCall at hm
    rw [if_pos (.inl hf)] at hm
    unfold precedingReady at hm
    split at hm
    · cases hm
    split at hm
    · rename_i hn
      exact preceding_none hn x hEx
    · rename_i p hp
      obtain ⟨⟨hpe, hps, hpc, hpi⟩, hmax⟩ := preceding_some hp
      have hpR : p ∈ R := h.has p hpe (by rw [hps, hs])
      have hxp : x.id ≤ p.id := by
        by_contra hc
        have h1 := hmax x hEx
        have h2 : Before p x := by
          obtain ⟨i, hi, rfl⟩ := List.mem_iff_getElem.1 hpR
          obtain ⟨j, hj, rfl⟩ := List.mem_iff_getElem.1 hxR
          rcases Nat.lt_trichotomy i j with hij | hij | hij
          · exact List.pairwise_iff_getElem.1 h.before i j hi hj hij
          · subst hij; omega
          · have := List.pairwise_iff_getElem.1 h.sorted j i hj hi hij; omega
        unfold Before at h2; omega
      have hpn := hun p hpR hxp
      split at hm
      · rename_i hlt
        exact hpn (hw p hpR hpe hlt)
      · split at hm
        · rename_i hfind
          obtain ⟨r, hr, h1, h2⟩ := (hkept p hpR hxp).2
          rw [List.find?_eq_none] at hfind
          have := hfind r hr
          simp [h1, h2] at this
        · rename_i r hfind
          have h1 := List.find?_some hfind
          have h2 := List.mem_of_find?_eq_some hfind
          simp only [Bool.and_eq_true, beq_iff_eq] at h1
          rw [hf] at hm
          simp only [Bool.or_eq_true, decide_eq_true_eq] at hm
          have hbk := hb.rows r h2
          rcases hm with hm | hm
          · have := hbk.success hm
            rw [h1.1, h1.2] at this; exact hpn this
          · exact hb.noExpired _ (hbk.expired hm) _ _ rfl

/-- a handler call with its outcome -/
theorem FInv.call {c : Cfg} {σ svc svc' start now : Nat} {db db' : DB} {log : List Log} {R : List EvRow} {e : EvRow} {ret : Ret} (h : FInv σ svc db log R) (hb : Base c db log)
    (hb' : Base c db' (.returned svc' e.id e ret now true :: .called svc' e.id e now :: log)) (he : e ∈ db.events) (hev : db'.events = db.events) (hnx : db'.nextEv = db.nextEv)
    (hm : mayCall db svc' start e = true) (hw : svc' = svc → ∀ p ∈ R, p ∈ db.events → p.id < start → HandledOk log svc p.id) : FInv σ svc db' (.returned svc' e.id e ret now true :: .called svc' e.id e now :: log) R := by
  have hd : handledOf σ svc (.returned svc' e.id e ret now true :: .called svc' e.id e now :: log) = handledOf σ svc log ++ if svc' = svc ∧ e.ev.sender = σ ∧ ret = .ok then [e] else [] := by
    have : (Log.returned svc' e.id e ret now true :: .called svc' e.id e now :: log) = [.returned svc' e.id e ret now true, .called svc' e.id e now] ++ log := rfl
    rw [this, handledOf_append]
    congr 1
    simp only [handledOf, List.reverse_cons, List.reverse_nil, List.nil_append, List.cons_append, List.filterMap_cons, List.filterMap_nil]
    by_cases hc : svc' = svc ∧ e.ev.sender = σ
    · cases ret <;> simp [hc.1, hc.2]
    · have hc' : ¬ (svc' = svc ∧ e.ev.sender = σ ∧ ret = .ok) := fun h => hc ⟨h.1, h.2.1⟩
      rw [if_neg hc']
      cases ret <;> simp [hc]
  have hnot : svc' = svc → e ∉ handledOf σ svc log := by
    rintro rfl hh
    obtain ⟨-, i, t, v, hx⟩ := mem_handledOf.1 hh
    obtain ⟨rfl, rfl, -⟩ := h.logged _ _ _ _ _ hx
    have h1 := (List.pairwise_cons.1 (List.pairwise_cons.1 (hb'.again svc' e.id)).2).1 _ hx
    exact h1 ⟨_, _, rfl⟩ _ _ rfl
  have hcall : svc' = svc → e.ev.sender = σ → (handledOf σ svc log ++ [e]) <+: R := by
    intro hs hσ
    subst hs
    exact call_next h hb he hσ hm (hw rfl) (hnot rfl)
  refine ⟨h.sorted, h.before, h.fifo, by rw [hnx]; exact h.fresh, by rw [hev]; exact h.has, by rw [hev]; exact h.same, fun a ha => List.mem_cons_of_mem _ (List.mem_cons_of_mem _ (h.stored a ha)), ?_, ?_, ?_⟩
  · intro i e' r t v hx
    rw [hnx]
    simp only [List.mem_cons, Log.returned.injEq, reduceCtorEq, false_or] at hx
    rcases hx with ⟨-, rfl, rfl, -, -, rfl⟩ | hx
    · exact ⟨rfl, rfl, hb.valid.evFresh _ he, fun a ha hi => h.same _ he a ha hi⟩
    · exact h.logged i e' r t v hx
  · rw [hd]
    split
    · rename_i hc; exact hcall hc.1 hc.2.1
    · rw [List.append_nil]; exact h.done
  · intro l1 l2 i e' t hlog hs
    match l1, hlog with
    | [], hlog => simp at hlog
    | [x], hlog =>
      simp only [List.cons_append, List.nil_append, List.cons.injEq, Log.called.injEq] at hlog
      obtain ⟨-, ⟨rfl, -, rfl, -⟩, rfl⟩ := hlog
      exact hcall rfl hs
    | x :: y :: l1, hlog =>
      simp only [List.cons_append, List.cons.injEq] at hlog
      exact h.next l1 l2 i e' t hlog.2.2 hs

theorem FInv.same_events {σ svc : Nat} {db db' : DB} {log : List Log} {R : List EvRow} (h : FInv σ svc db log R) (hev : db'.events = db.events) (hnx : db'.nextEv = db.nextEv) : FInv σ svc db' log R :=
  ⟨h.sorted, h.before, h.fifo, by rw [hnx]; exact h.fresh, by rw [hev]; exact h.has, by rw [hev]; exact h.same, h.stored, by rw [hnx]; exact h.logged, h.done, h.next⟩

theorem handleAll_snoc {c : Cfg} {svc start now : Nat} {ans : Nat → DEv → Ret} (t : Tuple) (ts : List Tuple) : ∀ (i : Nat) (db : DB),
    (handleAll c svc start now ans i (ts ++ [t]) db).1 = (handle c (handleAll c svc start now ans i ts db).1 svc start now t (ans (i + ts.length))).1 ∧
    handleAllLog c svc start now ans i (ts ++ [t]) db =
      handleLog c (handleAll c svc start now ans i ts db).1 svc start now t (ans (i + ts.length)) ++ handleAllLog c svc start now ans i ts db := by
  induction ts with
  | nil => intro i db; simp [handleAll, handleAllLog]
  | cons u ts ih =>
    intro i db
    obtain ⟨h1, h2⟩ := ih (i + 1) (handle c db svc start now u (ans i)).1
    simp only [List.cons_append, handleAll, handleAllLog, List.length_cons, h1, h2]
    refine ⟨by rw [show i + (ts.length + 1) = i + 1 + ts.length by omega], ?_⟩
    rw [show i + (ts.length + 1) = i + 1 + ts.length by omega, List.append_assoc]

theorem handle_cases (c : Cfg) (db : DB) (svc start now : Nat) (t : Tuple) (ans : DEv → Ret) :
    (handle c db svc start now t ans).1.events = db.events ∧ (handle c db svc start now t ans).1.nextEv = db.nextEv ∧
      (handleLog c db svc start now t ans = [] ∨
        mayCall db svc start t.e = true ∧ handleLog c db svc start now t ans = [.returned svc t.r.eventId t.e (ans t.e.ev) now true, .called svc t.r.eventId t.e now]) := by
  unfold handleLog handle
  split
  · split
    · exact ⟨rfl, rfl, .inl rfl⟩
    · split
      · rename_i hm; exact ⟨rfl, rfl, .inr ⟨hm, rfl⟩⟩
      · exact ⟨rfl, rfl, .inl rfl⟩
  · exact ⟨rfl, rfl, .inl rfl⟩

theorem FInv.run {c c' : Cfg} (hcount : Counting c.strategy) {σ svc svc' now : Nat} {ans : Nat → DEv → Ret} {p q : List Op} (hT : InTime c 0 (p ++ .run c' svc' now ans :: q)) {R : List EvRow}
    (h : FInv σ svc (runOps (emptyDB []) p) (opsLog (emptyDB []) p) R)
    (hw : svc' = svc → ∀ r ∈ (runOps (emptyDB []) p).recs, r.service = svc → r.status ≠ .success → ∀ e ∈ (runOps (emptyDB []) p).events, e.id = r.eventId → e.ev.sender = σ → now ≤ e.ev.created + c.window) :
    FInv σ svc (handleEvents c' svc' now ans (runOps (emptyDB []) p)).1 (runLog c' svc' now ans (runOps (emptyDB []) p) ++ opsLog (emptyDB []) p) R := by
  have hb := base hcount (inTime_append hT)
  have hstop := (inTime_run (Nat.zero_le _) hT).1
  have hbk : ∀ k ≤ c'.limit, Base c (handleEvents { c' with limit := k } svc' now ans (runOps (emptyDB []) p)).1 (runLog { c' with limit := k } svc' now ans (runOps (emptyDB []) p) ++ opsLog (emptyDB []) p) := by
    intro k hk
    have := base hcount (inTime_run hk hT).2
    rw [runOps_append, opsLog_append] at this
    simpa [runOps, opsLog, Op.apply, Op.log] using this
  generalize hdb : runOps (emptyDB []) p = db at *
  generalize hlg : opsLog (emptyDB []) p = log at *
  obtain ⟨k0, hk0, rfl⟩ := hstop
  unfold handleEvents runLog at *
  dsimp only at *
  cases hst : scanStart db c.window now with
  | none => simpa using h
  | some start =>
    rw [hst] at hbk
    dsimp only at *
    have hwin : svc' = svc → ∀ p ∈ R, p ∈ db.events → p.id < start → HandledOk log svc p.id := by
      intro hs p hp hpe hlt
      rcases hb.stored svc p.id (h.stored p hp) with ⟨r, hr, h1, h2⟩ | h1
      · by_cases hsu : r.status = .success
        · have := (hb.rows r hr).success hsu
          rw [h1, h2] at this; exact this
        · have h3 := hw hs r hr h1 hsu p hpe h2.symm (h.fifo p hp).2
          have := (C39_window_start.1 hst).2 p hpe h3
          omega
      · exact h1
    have hown := (C39_right_work hb.valid hb.integrity svc' k0 start now).own
    have hlen := (C39_right_work hb.valid hb.integrity svc' k0 start now).bounded
    have htake : ∀ k ≤ k0, scan db svc' k start now = (scan db svc' k0 start now).take k := fun k hk => scan_take hb.valid hb.integrity svc' start now hk
    rw [(handleAll_limit k0 svc' start now ans _ 0 db).1, (handleAll_limit k0 svc' start now ans _ 0 db).2]
    have hbk' : ∀ k ≤ k0, Base c (handleAll c svc' start now ans 0 ((scan db svc' k0 start now).take k) db).1 (handleAllLog c svc' start now ans 0 ((scan db svc' k0 start now).take k) db ++ log) := by
      intro k hk
      have := hbk k hk
      rw [(handleAll_limit k svc' start now ans _ 0 db).1, (handleAll_limit k svc' start now ans _ 0 db).2, htake k hk] at this
      exact this
    generalize scan db svc' k0 start now = ts at *
    suffices hk : ∀ k ≤ ts.length, FInv σ svc (handleAll c svc' start now ans 0 (ts.take k) db).1 (handleAllLog c svc' start now ans 0 (ts.take k) db ++ log) R ∧
        (handleAll c svc' start now ans 0 (ts.take k) db).1.events = db.events ∧ (handleAll c svc' start now ans 0 (ts.take k) db).1.nextEv = db.nextEv by
      have := (hk ts.length (Nat.le_refl _)).1
      rwa [List.take_length] at this
    intro k
    induction k with
    | zero => intro _; simpa [handleAll, handleAllLog] using h
    | succ k ih =>
      intro hk
      obtain ⟨h1, h2, h3⟩ := ih (by omega)
      have hbase := hbk' k (by omega)
      have hbase' := hbk' (k + 1) (by omega)
      have hsn : ts.take (k + 1) = ts.take k ++ [ts[k]] := by rw [List.take_append_getElem]
      rw [hsn] at hbase' ⊢
      obtain ⟨s1, s2⟩ := handleAll_snoc (c := c) (svc := svc') (start := start) (now := now) (ans := ans) ts[k] (ts.take k) 0 db
      rw [s1, s2] at hbase'
      rw [s1, s2]
      obtain ⟨c1, c2, c3⟩ := handle_cases c (handleAll c svc' start now ans 0 (ts.take k) db).1 svc' start now ts[k] (ans (0 + (ts.take k).length))
      refine ⟨?_, c1.trans h2, c2.trans h3⟩
      have ht : ts[k] ∈ ts := List.getElem_mem _
      rcases c3 with c3 | ⟨hm, c3⟩
      · rw [c3, List.nil_append]
        exact h1.same_events c1 c2
      · rw [c3] at hbase' ⊢
        simp only [← (hown _ ht).2, List.cons_append, List.nil_append] at hbase' ⊢
        refine FInv.call h1 hbase hbase' (by rw [h2]; exact (hown _ ht).1) c1 c2 hm ?_
        intro hs p hp hpe hlt
        exact (hwin hs p hp (h2 ▸ hpe) hlt).mono fun x hx => List.mem_append_right _ hx

/-! ## operations that add no event of the sender -/

structure NoneOf (σ : Nat) (db db' : DB) : Prop where
  events : ∃ new : List EvRow, (∀ e ∈ db'.events, e ∈ db.events ∨ e ∈ new) ∧ ∀ e ∈ new, db.nextEv ≤ e.id ∧ e.ev.sender ≠ σ
  nextEv : db.nextEv ≤ db'.nextEv
  txs : ∀ t ∈ db'.txs, t ∈ db.txs

theorem NoneOf.refl (σ : Nat) (db : DB) : NoneOf σ db db := ⟨⟨[], fun _ h => .inl h, by simp⟩, Nat.le_refl _, fun _ h => h⟩

theorem NoneOf.trans {σ : Nat} {a b d : DB} (h1 : NoneOf σ a b) (h2 : NoneOf σ b d) : NoneOf σ a d := by
  obtain ⟨⟨n1, e1, e1'⟩, m1, t1⟩ := h1
  obtain ⟨⟨n2, e2, e2'⟩, m2, t2⟩ := h2
  refine ⟨⟨n1 ++ n2, ?_, ?_⟩, Nat.le_trans m1 m2, fun t ht => t1 t (t2 t ht)⟩
  · intro e he
    rcases e2 e he with he | he
    · rcases e1 e he with he | he
      · exact .inl he
      · exact .inr (List.mem_append_left _ he)
    · exact .inr (List.mem_append_right _ he)
  · intro e he
    rcases List.mem_append.1 he with he | he
    · exact e1' e he
    · exact ⟨Nat.le_trans m1 (e2' e he).1, (e2' e he).2⟩

theorem dispatch_events (db : DB) (tid : Nat) (es : List DEv) (n : Nat) : ∀ e ∈ (dispatch db tid es n).1.events, e ∈ db.events ∨ e ∈ newEvents db.nextEv tid es := by
  intro e he
  unfold dispatch at he
  split at he
  · exact .inl he
  · split at he
    · exact .inl he
    · exact List.mem_append.1 he
    · rename_i n
      obtain ⟨f1, -⟩ := insertAllRecs_frame (newEvents db.nextEv tid es) (db.services.take n) (insertEvents db tid es)
      dsimp only at he
      rw [f1] at he
      exact List.mem_append.1 he

theorem noneOf_dispatch {σ : Nat} (db : DB) (tid : Nat) {es : List DEv} (h : ∀ e ∈ es, e.sender ≠ σ) (n : Nat) : NoneOf σ db (dispatch db tid es n).1 := by
  have ha := added_dispatch db tid es n
  refine ⟨⟨newEvents db.nextEv tid es, dispatch_events db tid es n, ?_⟩, ha.nextEv, by rw [ha.txs]; exact fun _ h => h⟩
  intro e he
  refine ⟨(mem_newEvents he).2.1, h e.ev ?_⟩
  have := List.mem_map_of_mem (f := EvRow.ev) he
  rwa [newEvents_ev] at this

theorem noneOf_deleteTx (σ : Nat) (db : DB) (i : Nat) : NoneOf σ db (deleteTx db i) := ⟨⟨[], fun _ h => .inl h, by simp⟩, Nat.le_refl _, fun _ h => List.mem_of_mem_filter h⟩

theorem noneOf_commit {σ : Nat} (db : DB) {tx : TxRow} (h : ∀ e ∈ tx.events, e.sender ≠ σ) (n : Nat) : NoneOf σ db (commit db tx n).1 := by
  unfold commit
  split
  · exact .refl _ _
  · rename_i n
    split
    · exact .refl _ _
    · have h1 := noneOf_dispatch db tx.id h n
      unfold commitRest
      split
      · rename_i d hd; rw [hd] at h1; exact h1
      · rename_i d hd
        rw [hd] at h1
        split
        · exact h1
        · exact h1.trans (noneOf_deleteTx ..)

theorem noneOf_checkTx {σ : Nat} (ask : DEv → TxAns) (db : DB) {tx : TxRow} (h : ∀ e ∈ tx.events, e.sender ≠ σ) (n : Nat) : NoneOf σ db (checkTx ask db tx n) := by
  unfold checkTx
  split
  · exact .refl _ _
  · split
    · exact .refl _ _
    · exact noneOf_commit db h n
    · unfold rollback; split
      · exact noneOf_deleteTx ..
      · exact .refl _ _

theorem noneOf_checks {σ : Nat} (ask : DEv → TxAns) (ns : Nat → Nat) (l : List TxRow) (h : ∀ t ∈ l, ∀ e ∈ t.events, e.sender ≠ σ) : ∀ db, NoneOf σ db (l.foldl (fun d t => checkTx ask d t (ns t.id)) db) := by
  induction l with
  | nil => intro db; exact .refl _ _
  | cons t l ih => intro db; exact (noneOf_checkTx ask db (h t (by simp)) _).trans (ih (fun u hu => h u (by simp [hu])) _)

theorem mem_recsLog {ps : List EvRow} {x : Log} : ∀ {ss : List Nat}, x ∈ recsLog ps ss ↔ ∃ s ∈ ss, ∃ p ∈ ps, x = .stored s p.id := by
  intro ss
  induction ss with
  | nil => simp [recsLog]
  | cons s ss ih => simp only [recsLog, List.mem_append, ih, List.mem_map, List.mem_cons]; grind

theorem dispatchLog_stored (db : DB) (tid : Nat) (es : List DEv) (n : Nat) : ∀ x ∈ dispatchLog db tid es n, ∃ a b, x = .stored a b := by
  intro x hx
  unfold dispatchLog at hx
  split at hx
  · simp at hx
  · split at hx
    · simp at hx
    · simp at hx
    · obtain ⟨s, -, p, -, rfl⟩ := mem_recsLog.1 hx
      exact ⟨_, _, rfl⟩

theorem commitLog_stored (db : DB) (tx : TxRow) (n : Nat) : ∀ x ∈ commitLog db tx n, ∃ a b, x = .stored a b := by
  intro x hx
  unfold commitLog at hx
  split at hx
  · simp at hx
  · split at hx
    · simp at hx
    · exact dispatchLog_stored _ _ _ _ x hx

theorem checksLog_stored (ask : DEv → TxAns) (ns : Nat → Nat) (l : List TxRow) : ∀ db, ∀ x ∈ checksLog ask ns l db, ∃ a b, x = .stored a b := by
  induction l with
  | nil => intro db x hx; simp [checksLog] at hx
  | cons t l ih =>
    intro db x hx
    rcases List.mem_append.1 hx with hx | hx
    · exact ih _ x hx
    · unfold checkLog at hx
      split at hx
      · simp at hx
      · split at hx
        · simp at hx
        · exact commitLog_stored _ _ _ x hx
        · simp at hx

theorem FInv.noneOf {σ svc : Nat} {db db' : DB} {log l : List Log} {R : List EvRow} (h : FInv σ svc db log R) (hv : Valid db) (hn : NoneOf σ db db') (hl : ∀ x ∈ l, ∃ a b, x = .stored a b) :
    FInv σ svc db' (l ++ log) R := by
  obtain ⟨⟨new, h1, h2⟩, h3, -⟩ := hn
  have := h.grow (db' := db') (l := l) (new := new) (newR := []) hv hl h3 h1 (fun e he => (h2 e he).1) (by simp) (fun e he hs => absurd hs (h2 e he).2) (by simp) .nil (by simpa using h.before) (by simp) (by simp)
  simpa using this

theorem newEvents_sorted (tid : Nat) (es : List DEv) : ∀ f, (newEvents f tid es).Pairwise fun a b => a.id < b.id := by
  intro f
  have : ((newEvents f tid es).map EvRow.id).Pairwise (· < ·) := by rw [newEvents_ids]; exact List.pairwise_lt_range'
  exact List.pairwise_map.1 this

theorem finv_ops {c : Cfg} (hcount : Counting c.strategy) {σ svc : Nat} {ops : List Op} (hT : InTime c 0 ops) (hF : FifoHistory c (emptyDB []) σ svc ops) : ∀ q p, ops = p ++ q →
    ∃ R, R.map EvRow.ev = sentBy σ p ∧ FInv σ svc (runOps (emptyDB []) p) (opsLog (emptyDB []) p) R ∧ ∀ t ∈ (runOps (emptyDB []) p).txs, ∀ e ∈ t.events, e.sender ≠ σ := by
  suffices h : ∀ p q, ops = p ++ q → ∃ R, R.map EvRow.ev = sentBy σ p ∧ FInv σ svc (runOps (emptyDB []) p) (opsLog (emptyDB []) p) R ∧ ∀ t ∈ (runOps (emptyDB []) p).txs, ∀ e ∈ t.events, e.sender ≠ σ from
    fun q p => h p q
  intro p
  induction p using List.reverseRecOn with
  | nil =>
    intro q _
    refine ⟨[], rfl, ?_, by simp [runOps, emptyDB]⟩
    constructor <;> simp [runOps, emptyDB, opsLog, handledOf]
  | append_singleton p op ih =>
    intro q hq
    have hq' : ops = p ++ op :: q := by simpa using hq
    obtain ⟨R, hR, hI, hX⟩ := ih (op :: q) hq'
    have hTp : InTime c 0 p := inTime_append (hq' ▸ hT)
    have hb := base hcount hTp
    rw [runOps_append, opsLog_append]
    have hs : sentBy σ (p ++ [op]) = sentBy σ p ++ op.sends σ := by simp [sentBy]
    rw [hs]
    have hplain := hF.plain op (by rw [hq']; simp)
    have hsent : (sentBy σ p ++ op.sends σ).Pairwise DEv.before := by
      have h1 := hF.order
      have h2 : sentBy σ ops = (sentBy σ p ++ op.sends σ) ++ sentBy σ q := by rw [hq']; simp [sentBy]
      rw [h2] at h1
      exact (List.pairwise_append.1 h1).1
    have hfifo : ∀ e ∈ op.sends σ, e.sendType = .fifo := by
      intro e he
      refine hF.fifo e ?_
      rw [hq']; simp only [sentBy, List.flatMap_append, List.flatMap_cons, List.mem_append]
      exact .inr (.inl he)
    have hpos := fun es n (h : op = .dispatch es n) => hF.whole p es n q (by rw [← h]; exact hq')
    have hwin := fun c' now ans (h : op = .run c' svc now ans) => hF.window p c' now ans q (by rw [← h]; exact hq')
    rw [hq'] at hT
    have hrun := fun c' s now ans (h : op = .run c' s now ans) => FInv.run hcount (h ▸ hT) hI
    simp only [runOps, opsLog, List.foldl_cons, List.foldl_nil, List.nil_append] at *
    generalize List.foldl Op.apply (emptyDB []) p = db at *
    generalize opsLog (emptyDB []) p = log at *
    -- operations that send nothing and call no handler
    have plain : ∀ db', NoneOf σ db db' → op.apply db = db' → (∀ x ∈ op.log db, ∃ a b, x = .stored a b) → op.sends σ = [] →
        ∃ R, R.map EvRow.ev = sentBy σ p ++ op.sends σ ∧ FInv σ svc (op.apply db) (op.log db ++ log) R ∧ ∀ t ∈ (op.apply db).txs, ∀ e ∈ t.events, e.sender ≠ σ := by
      intro db' hn he hl hsd
      refine ⟨R, by rw [hsd, hR, List.append_nil], by rw [he]; exact hI.noneOf hb.valid hn hl, ?_⟩
      rw [he]; exact fun t ht => hX t (hn.txs t ht)
    cases op with
    | dispatch es n =>
      by_cases hσ : ∃ e ∈ es, e.sender = σ
      · obtain ⟨hsvc, hok⟩ := hpos es n rfl hσ
        have hd : ∃ m, n = m + 2 ∧ db.services.length ≤ m ∧ es ≠ [] := by
          unfold dispatch at hok
          split at hok
          · cases hok
          · rename_i he
            split at hok
            · cases hok
            · cases hok
            · rename_i m; exact ⟨m, rfl, by simpa using hok, he⟩
        obtain ⟨m, rfl, hm, hes⟩ := hd
        have hdb : (dispatch db 0 es (m + 2)).1 = insertAllRecs (newEvents db.nextEv 0 es) db.services (insertEvents db 0 es) := by
          unfold dispatch; rw [if_neg hes]; dsimp only; rw [List.take_of_length_le hm]
        have hlog : dispatchLog db 0 es (m + 2) = recsLog (newEvents db.nextEv 0 es) db.services := by
          unfold dispatchLog; rw [if_neg hes]; dsimp only; rw [List.take_of_length_le hm]
        obtain ⟨f1, f2, f3, f4, f5⟩ := insertAllRecs_frame (newEvents db.nextEv 0 es) db.services (insertEvents db 0 es)
        have hmap : ((newEvents db.nextEv 0 es).filter fun e => e.ev.sender == σ).map EvRow.ev = es.filter fun e => e.sender == σ := by
          have := List.filter_map (f := EvRow.ev) (p := fun e : DEv => e.sender == σ) (l := newEvents db.nextEv 0 es)
          rw [newEvents_ev] at this
          rw [this]; rfl
        refine ⟨R ++ (newEvents db.nextEv 0 es).filter fun e => e.ev.sender == σ, by rw [List.map_append, hR, hmap]; rfl, ?_, ?_⟩
        · show FInv σ svc (dispatch db 0 es (m + 2)).1 (dispatchLog db 0 es (m + 2) ++ log) _
          rw [hdb, hlog]
          refine hI.grow (new := newEvents db.nextEv 0 es) hb.valid ?_ (by rw [f4]; simp [insertEvents]) ?_ (fun e he => (mem_newEvents he).2.1) ?_ ?_ ?_ ?_ ?_ ?_ ?_
          · intro x hx
            obtain ⟨s, -, p, -, rfl⟩ := mem_recsLog.1 hx
            exact ⟨_, _, rfl⟩
          · rw [f1]; intro e he; exact List.mem_append.1 he
          · intro a ha
            have ha := List.mem_of_mem_filter ha
            exact ⟨ha, by rw [f4]; exact (mem_newEvents ha).2.2⟩
          · intro e he hs; exact List.mem_filter.2 ⟨he, by simp [hs]⟩
          · intro e he a ha hi
            have hnd : ((newEvents db.nextEv 0 es).map EvRow.id).Nodup := by rw [newEvents_ids]; exact List.nodup_range'
            exact List.inj_on_of_nodup_map hnd he (List.mem_of_mem_filter ha) hi
          · exact (newEvents_sorted 0 es _).sublist List.filter_sublist
          · have : ((R ++ (newEvents db.nextEv 0 es).filter fun e => e.ev.sender == σ).map EvRow.ev).Pairwise DEv.before := by
              rw [List.map_append, hR, hmap]; exact hsent
            exact (List.pairwise_map.1 this).imp fun h => h
          · intro a ha
            obtain ⟨h1, h2⟩ := List.mem_filter.1 ha
            refine ⟨hfifo a.ev ?_, by simpa using h2⟩
            show a.ev ∈ es.filter fun e => e.sender == σ
            rw [← hmap]; exact List.mem_map_of_mem ha
          · intro a ha
            exact mem_recsLog.2 ⟨svc, hsvc, a, List.mem_of_mem_filter ha, rfl⟩
        · show ∀ t ∈ (dispatch db 0 es (m + 2)).1.txs, _
          rw [(added_dispatch db 0 es (m + 2)).txs]; exact hX
      · have hσ' : ∀ e ∈ es, e.sender ≠ σ := fun e he hs => hσ ⟨e, he, hs⟩
        refine plain _ (noneOf_dispatch db 0 hσ' n) rfl (dispatchLog_stored db 0 es n) ?_
        simp only [Op.sends, List.filter_eq_nil_iff, beq_iff_eq]
        exact hσ'
    | begin s now timeout es ok =>
      have he := hplain.1 s now timeout es ok rfl
      have hev : (dispatchBegin db s now timeout es ok).1.events = db.events ∧ (dispatchBegin db s now timeout es ok).1.nextEv = db.nextEv ∧
          ∀ t ∈ (dispatchBegin db s now timeout es ok).1.txs, t ∈ db.txs ∨ t.events = es := by
        unfold dispatchBegin
        split
        · exact ⟨rfl, rfl, fun t ht => .inl ht⟩
        · split
          · exact ⟨rfl, rfl, fun t ht => .inl ht⟩
          · refine ⟨rfl, rfl, fun t ht => ?_⟩
            rcases List.mem_append.1 ht with ht | ht
            · exact .inl ht
            · simp only [List.mem_singleton] at ht; subst ht; exact .inr rfl
      refine ⟨R, by simpa [Op.sends] using hR, ?_, ?_⟩
      · exact hI.same_events hev.1 hev.2.1
      · intro t ht
        rcases hev.2.2 t ht with ht | ht
        · exact hX t ht
        · rw [ht]; exact he
    | commit tx n =>
      have he := hplain.2 tx n rfl
      refine plain _ ?_ rfl ?_ rfl
      · simp only [Op.apply]; split
        · exact noneOf_commit db he n
        · exact .refl _ _
      · simp only [Op.log]; split
        · exact commitLog_stored db tx n
        · simp
    | rollback tx ok =>
      refine plain _ ?_ rfl (by simp [Op.log]) rfl
      simp only [Op.apply, rollback]; split
      · split
        · exact noneOf_deleteTx ..
        · exact .refl _ _
      · exact .refl _ _
    | check ask s now ns =>
      refine plain _ ?_ rfl (checksLog_stored ask ns _ db) rfl
      exact noneOf_checks ask ns _ (fun t ht => hX t (List.mem_of_mem_filter ht)) db
    | register s =>
      refine plain _ ?_ rfl (by simp [Op.log]) rfl
      simp only [Op.apply]; unfold register; split <;> exact ⟨⟨[], fun _ h => .inl h, by simp⟩, Nat.le_refl _, fun _ h => h⟩
    | run c' s now ans =>
      have hsm := same_handleEvents (c := c') (svc := s) (now := now) (ans := ans) hb.valid.recIds
      refine ⟨R, by simpa [Op.sends] using hR, ?_, ?_⟩
      · refine hrun c' s now ans rfl ?_
        rintro rfl
        exact hwin c' now ans rfl
      · show ∀ t ∈ (handleEvents c' s now ans db).1.txs, _
        rw [hsm.txs]; exact hX
    | clean c' s now =>
      obtain ⟨h1, h2⟩ := foldl_cleanBatch (svc := s) (batches (cleanable c' db s now)) db
      have h3 : ∀ (bs : List (List Nat)) (d : DB), (bs.foldl (cleanBatch s) d).nextEv = d.nextEv ∧ (bs.foldl (cleanBatch s) d).txs = d.txs := by
        intro bs
        induction bs with
        | nil => intro d; exact ⟨rfl, rfl⟩
        | cons b bs ih => intro d; exact ih _
      refine plain _ ?_ rfl (by simp [Op.log]) rfl
      refine ⟨⟨[], ?_, by simp⟩, ?_, ?_⟩
      · intro e he; exact .inl ((h2 e).1 he).1
      · exact Nat.le_of_eq (h3 _ _).1.symm
      · intro t ht
        have : t ∈ ((batches (cleanable c' db s now)).foldl (cleanBatch s) db).txs := ht
        rwa [(h3 _ _).2] at this

/-! ## the theorems -/

/-- **C104** The events of a FIFO sender that a service has handled successfully are a prefix of what the sender dispatched: in the same order, each once, without gaps. -/
theorem C104_prefix {c : Cfg} (hcount : Counting c.strategy) {σ svc : Nat} {ops : List Op} (hT : InTime c 0 ops) (hF : FifoHistory c (emptyDB []) σ svc ops) :
    (handledOf σ svc (opsLog (emptyDB []) ops)).map EvRow.ev <+: sentBy σ ops := by
  obtain ⟨R, h1, h2, -⟩ := finv_ops hcount hT hF [] ops (by simp)
  rw [← h1]
  exact h2.done.map _

/-- **C104** Whenever its handler is called for an event of the sender, this is the first one not yet handled: those handled so far, followed by this one, are a prefix of what the sender dispatched. The log is latest first. -/
theorem C104_next {c : Cfg} (hcount : Counting c.strategy) {σ svc : Nat} {ops : List Op} (hT : InTime c 0 ops) (hF : FifoHistory c (emptyDB []) σ svc ops) {l1 l2 : List Log} {i t : Nat} {e : EvRow}
    (hlog : opsLog (emptyDB []) ops = l1 ++ .called svc i e t :: l2) (hs : e.ev.sender = σ) : (handledOf σ svc l2).map EvRow.ev ++ [e.ev] <+: sentBy σ ops := by
  obtain ⟨R, h1, h2, -⟩ := finv_ops hcount hT hF [] ops (by simp)
  rw [← h1]
  have := (h2.next l1 l2 i e t hlog hs).map EvRow.ev
  simpa using this

end Ddd.Bus
