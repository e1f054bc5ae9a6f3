import Verif.Props.BusLTSDemo
import Verif.Props.BusHandle
/-!
# C44: the events of a FIFO sender are handled in order, without gaps
-/
set_option linter.unusedVariables false
set_option linter.unusedSimpArgs false
namespace Ddd.Bus

theorem OrderedReachable.reachable {c : Cfg} {pol : Pol} {σ svc : Nat} {s : State} (h : OrderedReachable c pol σ svc s) : Reachable c pol s := by
  induction h with
  | init => exact .init
  | step _ hst _ ih => exact .step ih hst

theorem inOrder_init (σ svc : Nat) : InOrder σ svc State.init := ⟨by simp [State.init], by simp [State.init], by simp [State.init], by simp [State.init], by simp [State.init]⟩

theorem OrderedReachable.inOrder {c : Cfg} {pol : Pol} {σ svc : Nat} {s : State} (h : OrderedReachable c pol σ svc s) : InOrder σ svc s := by
  cases h with
  | init => exact inOrder_init σ svc
  | step _ _ h => exact h

/-- what is known about a job of the service for an event of the sender -/
structure JobOrd (σ svc : Nat) (s : State) (j : Job) : Prop where
  old : j.t.e.id < s.db.nextEv
  same : ∀ e ∈ s.db.events, e.id = j.t.e.id → e = j.t.e
  fifo : j.svc = svc → j.t.e.ev.sender = σ → j.t.e.ev.sendType = .fifo
  before : j.svc = svc → j.t.e.ev.sender = σ → ∀ a ∈ s.db.events, a.ev.sender = σ → a.id < j.t.e.id → Before a j.t.e ∧ Log.stored svc a.id ∈ s.log

structure Ord (σ svc : Nat) (s : State) : Prop where
  pend : ∀ j ∈ s.pend, JobOrd σ svc s j
  busy : ∀ j ∈ s.busy, JobOrd σ svc s j
  done : ∀ j ∈ s.busy, j.svc = svc → j.t.e.ev.sender = σ → ∀ a ∈ s.db.events, a.ev.sender = σ → a.id < j.t.e.id → HandledOk s.log svc a.id
  gaps : ∀ a ∈ s.db.events, ∀ b ∈ s.db.events, a.ev.sender = σ → b.ev.sender = σ → a.id < b.id → HandledOk s.log svc b.id → HandledOk s.log svc a.id

theorem JobOrd.mono {σ svc : Nat} {s s' : State} {j : Job} (h : JobOrd σ svc s j) (h1 : s.db.nextEv ≤ s'.db.nextEv) (h2 : ∀ e ∈ s'.db.events, e ∈ s.db.events ∨ s.db.nextEv ≤ e.id) (h3 : ∀ x ∈ s.log, x ∈ s'.log) :
    JobOrd σ svc s' j := by
  refine ⟨Nat.lt_of_lt_of_le h.old h1, ?_, h.fifo, ?_⟩
  · intro e he hi
    rcases h2 e he with he | he
    · exact h.same e he hi
    · have := h.old; omega
  · intro hs hσ a ha has hi
    rcases h2 a ha with ha | ha
    · have := h.before hs hσ a ha has hi
      exact ⟨this.1, h3 _ this.2⟩
    · have := h.old; omega

/-- the call step: all earlier events of the sender are handled -/
theorem ready_means_done {c : Cfg} {pol : Pol} (hcalm : pol.calm = true) (hnoexp : ∀ x ∈ (s : State).log, ∀ a b, x ≠ Log.expired a b) (hsafe : Safe c.strategy s) {σ svc : Nat} (ho : InOrder σ svc s) (h : Ord σ svc s)
    {j : Job} (hj : j ∈ s.pend) (hs : j.svc = svc) (hσ : j.t.e.ev.sender = σ) (hm : mayCall s.db j.svc j.start j.t.e = true) :
    ∀ a ∈ s.db.events, a.ev.sender = σ → a.id < j.t.e.id → HandledOk s.log svc a.id := by
  have hjo := h.pend j hj
  have hf := hjo.fifo hs hσ
  intro a ha has hi
  unfold mayCall at hm
  rw [if_pos (.inl hf)] at hm
  unfold precedingReady at hm
  split at hm
  · cases hm
  have hE : ∀ a ∈ s.db.events, a.ev.sender = σ → a.id < j.t.e.id → Earlier s.db j.t.e a := by
    intro a ha has hi
    refine ⟨ha, by rw [has, hσ], ?_, hi⟩
    have := (hjo.before hs hσ a ha has hi).1
    unfold Before at this; omega
  split at hm
  · rename_i hn
    exact absurd (hE a ha has hi) (preceding_none hn a)
  · rename_i p hp
    obtain ⟨⟨hpe, hps, hpc, hpi⟩, hmax⟩ := preceding_some hp
    have hps' : p.ev.sender = σ := by rw [hps, hσ]
    -- it is enough that `p` is handled
    suffices hpd : HandledOk s.log svc p.id by
      by_cases hap : a.id = p.id
      · rw [hap]; exact hpd
      · have : a.id < p.id := by
          by_contra hc
          have h1 := ho.created p hpe a ha hps' has (by omega)
          have h2 := hmax a (hE a ha has hi)
          unfold Before at h1; omega
        exact h.gaps a ha p hpe has hps' this hpd
    split at hm
    · rename_i hw
      exact ho.window j hj hs p hpe hps' hw
    · have hstored := (hjo.before hs hσ p hpe hps' hpi).2
      split at hm
      · rename_i hfind
        rcases hsafe.stored svc p.id hstored with ⟨r, hr, h1, h2⟩ | h1
        · rw [List.find?_eq_none] at hfind
          have := hfind r hr
          simp [h1, h2, hs] at this
        · exact h1
      · rename_i r hfind
        have h1 := List.find?_some hfind
        have h2 := List.mem_of_find?_eq_some hfind
        simp only [Bool.and_eq_true, beq_iff_eq] at h1
        rw [hf] at hm
        simp only [Bool.or_eq_true, decide_eq_true_eq] at hm
        have hb := hsafe.rows r h2
        rcases hm with hm | hm
        · have := hb.success hm
          rw [h1.1, h1.2, hs] at this; exact this
        · exact absurd rfl (hnoexp _ (hb.expired hm) _ _)

theorem handledOk_cons {x : Log} {log : List Log} {svc eid : Nat} : HandledOk (x :: log) svc eid ↔ x.isOk svc eid = true ∨ HandledOk log svc eid := by
  simp [HandledOk]

theorem no_expired {c : Cfg} {pol : Pol} (hp : pol.noExpire = true) {s : State} (h : Reachable c pol s) : ∀ x ∈ s.log, ∀ a b, x ≠ Log.expired a b := by
  induction h with
  | init => simp [State.init]
  | step h1 hst ih =>
    cases hst with
    | dispRecs ps sv todo hps hu =>
      intro x hx
      rcases List.mem_append.1 hx with hx | hx
      · obtain ⟨p, -, rfl⟩ := List.mem_map.1 hx; simp
      · exact ih x hx
    | call j hj hl hx hs hm hf => intro x hx; rcases List.mem_cons.1 hx with rfl | hx; · simp
                                  exact ih x hx
    | finish j ret hj t0 ht => intro x hx; rcases List.mem_cons.1 hx with rfl | hx; · simp
                               exact ih x hx
    | finishLost j ret hj hp t0 ht => intro x hx; rcases List.mem_cons.1 hx with rfl | hx; · simp
                                      exact ih x hx
    | expire r hr hl hp' => rw [hp] at hp'; cases hp'
    | _ => exact ih

theorem ord_reachable {c : Cfg} {pol : Pol} (hcalm : pol.calm = true) (hnoexp : pol.noExpire = true) (hcount : Counting c.strategy) {σ svc : Nat} {s : State} (h : OrderedReachable c pol σ svc s) : Ord σ svc s := by
  induction h with
  | init => exact ⟨by simp [State.init], by simp [State.init], by simp [State.init], by simp [State.init]⟩
  | @step s s' h1 hst ho' ih =>
    have hr := h1.reachable
    have hi := inv_reachable hr
    have hsafe := safe_reachable hcalm hcount hr
    have ho := h1.inOrder
    have hne := no_expired hnoexp hr
    -- a step that adds no events, jobs or results
    have quiet : s.db.nextEv ≤ s'.db.nextEv → (∀ e ∈ s'.db.events, e ∈ s.db.events) → (∀ x ∈ s.log, x ∈ s'.log) → (∀ i, HandledOk s'.log svc i → HandledOk s.log svc i) → (∀ j ∈ s'.pend, j ∈ s.pend) →
        (∀ j ∈ s'.busy, j ∈ s.busy) → Ord σ svc s' := by
      intro a1 a2 a3 a4 a5 a6
      refine ⟨fun j hj => (ih.pend j (a5 j hj)).mono a1 (fun e he => .inl (a2 e he)) a3, fun j hj => (ih.busy j (a6 j hj)).mono a1 (fun e he => .inl (a2 e he)) a3, ?_, ?_⟩
      · intro j hj h2 h3 a ha h4 h5; exact (ih.done j (a6 j hj) h2 h3 a (a2 a ha) h4 h5).mono a3
      · intro a ha b hb h2 h3 h4 h5; exact (ih.gaps a (a2 a ha) b (a2 b hb) h2 h3 h4 (a4 _ h5)).mono a3
    cases hst with
    | register sv =>
      have e1 : (register s.db sv).events = s.db.events ∧ (register s.db sv).nextEv = s.db.nextEv := by unfold register; split <;> simp
      exact quiet (by dsimp only; rw [e1.2]) (by dsimp only; rw [e1.1]; exact fun _ h => h) (fun _ h => h) (fun _ h => h) (fun _ h => h) fun _ h => h
    | dispInsert tid es he =>
      have hev : ∀ e ∈ s.db.events ++ newEvents s.db.nextEv tid es, e ∈ s.db.events ∨ s.db.nextEv ≤ e.id := by
        intro e he
        rcases List.mem_append.1 he with he | he
        · exact .inl he
        · exact .inr (newEvents_range he).1
      have hold : ∀ i, HandledOk s.log svc i → i < s.db.nextEv := by
        rintro i ⟨x, hx, hok⟩
        cases x <;> simp [Log.isOk] at hok
        rename_i a b e r t v
        obtain ⟨rfl, rfl, -⟩ := hok
        exact hi.disps.old _ _ (hi.trail.returned _ _ _ _ _ _ hx)
      refine ⟨fun j hj => (ih.pend j hj).mono (Nat.le_add_right ..) hev fun _ h => h, fun j hj => (ih.busy j hj).mono (Nat.le_add_right ..) hev fun _ h => h, ?_, ?_⟩
      · intro j hj h2 h3 a ha h4 h5
        rcases hev a ha with ha | ha
        · exact ih.done j hj h2 h3 a ha h4 h5
        · have := (ih.busy j hj).old; omega
      · intro a ha b hb h2 h3 h4 h5
        have := hold _ h5
        rcases hev b hb with hb | hb
        · rcases hev a ha with ha | ha
          · exact ih.gaps a ha b hb h2 h3 h4 h5
          · omega
        · omega
    | dispRecs ps sv todo hps hu =>
      refine quiet (Nat.le_refl _) (fun _ h => h) (fun x hx => List.mem_append.2 (.inr hx)) ?_ (fun _ h => h) fun _ h => h
      rintro i ⟨x, hx, hok⟩
      rcases List.mem_append.1 hx with hx | hx
      · obtain ⟨p, -, rfl⟩ := List.mem_map.1 hx; simp [Log.isOk] at hok
      · exact ⟨x, hx, hok⟩
    | scanEvents sv start rs hs hc =>
      refine ⟨?_, fun j hj => (ih.busy j hj).mono (Nat.le_refl _) (fun e he => .inl he) fun _ h => h, ih.done, ih.gaps⟩
      intro j hj
      rcases List.mem_append.1 hj with hj | hj
      · obtain ⟨t, ht, rfl⟩ := List.mem_map.1 hj
        have hte := (mem_pairUp ht).2
        have hown := (pairUp_own hi.schema.evIds (hi.copies.order _ hs) (hc hcalm)).2 t ht
        have htr := (mem_pairUp ht).1
        refine ⟨hi.schema.evFresh _ hte, ?_, fun _ h3 => ho.fifo _ hte h3, ?_⟩
        · intro e he heq
          exact List.inj_on_of_nodup_map hi.schema.evIds he hte heq
        · intro h2 h3 a ha h4 h5
          refine ⟨ho.created a ha _ hte h4 h3 h5, ho.recorded a ha _ hte h4 h3 h5 ?_⟩
          have := hi.trail.off t.r (.inl ⟨_, hs, htr⟩)
          rw [hi.copies.scan _ hs t.r htr, ← hown] at this
          simp only [Scan.svc] at this
          dsimp only at h2
          rw [h2] at this; exact this
      · exact (ih.pend j hj).mono (Nat.le_refl _) (fun e he => .inl he) fun _ h => h
    | call j hj hl hx hs hm hf =>
      have hmem : ∀ x ∈ s.log, x ∈ Log.called j.svc j.t.r.eventId j.t.e s.now :: s.log := fun x hx => by simp [hx]
      have mono : ∀ x, JobOrd σ svc s x → JobOrd σ svc { s with pend := s.pend.erase j, busy := j :: s.busy, log := .called j.svc j.t.r.eventId j.t.e s.now :: s.log } x :=
        fun x hx => hx.mono (Nat.le_refl _) (fun e he => .inl he) hmem
      refine ⟨fun x hx => mono x (ih.pend x (List.mem_of_mem_erase hx)), ?_, ?_, ?_⟩
      · intro x hx
        rcases List.mem_cons.1 hx with rfl | hx
        · exact mono _ (ih.pend _ hj)
        · exact mono x (ih.busy x hx)
      · intro x hx h2 h3 a ha h4 h5
        rcases List.mem_cons.1 hx with rfl | hx
        · exact (ready_means_done hcalm hne hsafe ho ih hj h2 h3 hm a ha h4 h5).mono hmem
        · exact (ih.done x hx h2 h3 a ha h4 h5).mono hmem
      · intro a ha b hb h2 h3 h4 h5
        rw [handledOk_cons] at h5
        rcases h5 with h5 | h5
        · simp [Log.isOk] at h5
        · exact (ih.gaps a ha b hb h2 h3 h4 h5).mono hmem
    | blocked j hj hl hx hs hm hf => exact quiet (Nat.le_refl _) (fun _ h => h) (fun _ h => h) (fun _ h => h) (fun _ h => List.mem_of_mem_erase h) fun _ h => h
    | jobDrop j => exact quiet (Nat.le_refl _) (fun _ h => h) (fun _ h => h) (fun _ h => h) (fun _ h => List.mem_of_mem_erase h) fun _ h => h
    | finish j ret hj t0 ht =>
      have hmem : ∀ x ∈ s.log, x ∈ Log.returned j.svc j.t.r.eventId j.t.e ret t0 true :: s.log := fun x hx => by simp [hx]
      refine ⟨fun x hx => (ih.pend x hx).mono (Nat.le_refl _) (fun e he => .inl he) hmem, fun x hx => (ih.busy x (List.mem_of_mem_erase hx)).mono (Nat.le_refl _) (fun e he => .inl he) hmem,
        fun x hx h2 h3 a ha h4 h5 => (ih.done x (List.mem_of_mem_erase hx) h2 h3 a ha h4 h5).mono hmem, ?_⟩
      intro a ha b hb h2 h3 h4 h5
      rw [handledOk_cons] at h5
      rcases h5 with h5 | h5
      · simp only [Log.isOk, decide_eq_true_eq] at h5
        have hbe : b = j.t.e := (ih.busy j hj).same b hb h5.2.2.1.symm
        exact (ih.done j hj h5.1 (by rw [← hbe]; exact h3) a ha h2 (by rw [← hbe]; exact h4)).mono hmem
      · exact (ih.gaps a ha b hb h2 h3 h4 h5).mono hmem
    | finishLost j ret hj hp t0 ht =>
      have hmem : ∀ x ∈ s.log, x ∈ Log.returned j.svc j.t.r.eventId j.t.e ret t0 false :: s.log := fun x hx => by simp [hx]
      refine ⟨fun x hx => (ih.pend x hx).mono (Nat.le_refl _) (fun e he => .inl he) hmem, fun x hx => (ih.busy x (List.mem_of_mem_erase hx)).mono (Nat.le_refl _) (fun e he => .inl he) hmem,
        fun x hx h2 h3 a ha h4 h5 => (ih.done x (List.mem_of_mem_erase hx) h2 h3 a ha h4 h5).mono hmem, ?_⟩
      intro a ha b hb h2 h3 h4 h5
      rw [handledOk_cons] at h5
      rcases h5 with h5 | h5
      · simp only [Log.isOk, decide_eq_true_eq] at h5
        have hbe : b = j.t.e := (ih.busy j hj).same b hb h5.2.2.1.symm
        exact (ih.done j hj h5.1 (by rw [← hbe]; exact h3) a ha h2 (by rw [← hbe]; exact h4)).mono hmem
      · exact (ih.gaps a ha b hb h2 h3 h4 h5).mono hmem
    | crash j hp => exact quiet (Nat.le_refl _) (fun _ h => h) (fun _ h => h) (fun _ h => h) (fun _ h => h) fun _ h => List.mem_of_mem_erase h
    | cleanEvents sv d rest hd => exact quiet (Nat.le_refl _) (fun e he => List.mem_of_mem_filter he) (fun _ h => h) (fun _ h => h) (fun _ h => h) fun _ h => h
    | expire r hr hl hp => rw [hnoexp] at hp; cases hp
    | _ => exact quiet (Nat.le_refl _) (fun _ h => h) (fun _ h => h) (fun _ h => h) (fun _ h => h) fun _ h => h

/-- **C44 (partial)** In order, without gaps: when the handler is called for an event of sender `σ` (and until it returns), every event stored for this service before it has been handled successfully, unless it is an event of another sender. Under the
circumstances `InOrder`, when a scan reads records with their events (`calm`) and nobody expires records by hand. Workers may even overlap and act on stale copies, and crash. `InOrder` can not be dropped: see `C44_dispatch_race`, `C44_expired_gap`. -/
theorem C44_in_order_partial {c : Cfg} {pol : Pol} (hcalm : pol.calm = true) (hnoexp : pol.noExpire = true) (hcount : Counting c.strategy) {σ svc : Nat} {s : State} (h : OrderedReachable c pol σ svc s)
    {j : Job} (hj : j ∈ s.busy) (hs : j.svc = svc) (hσ : j.t.e.ev.sender = σ) {i : Nat} (hi : i < j.t.e.id) (hst : .stored svc i ∈ s.log) :
    HandledOk s.log svc i ∨ ∃ a ∈ s.db.events, a.id = i ∧ a.ev.sender ≠ σ := by
  have ho := h.inOrder
  have hord := ord_reachable hcalm hnoexp hcount h
  have hsafe := safe_reachable hcalm hcount h.reachable
  rcases hsafe.stored svc i hst with ⟨r, hr, h1, h2⟩ | h1
  · obtain ⟨a, ha, hai⟩ := ho.kept r hr h1
    rw [h2] at hai
    by_cases hσa : a.ev.sender = σ
    · left; rw [← hai]; exact hord.done j hj hs hσ a ha hσa (by omega)
    · exact .inr ⟨a, ha, hai, hσa⟩
  · exact .inl h1

/-- **C44 (partial)** No gaps: if an event of the sender was handled, so were all earlier ones still in the table. -/
theorem C44_no_gaps_partial {c : Cfg} {pol : Pol} (hcalm : pol.calm = true) (hnoexp : pol.noExpire = true) (hcount : Counting c.strategy) {σ svc : Nat} {s : State} (h : OrderedReachable c pol σ svc s)
    {a b : EvRow} (ha : a ∈ s.db.events) (hb : b ∈ s.db.events) (has : a.ev.sender = σ) (hbs : b.ev.sender = σ) (hi : a.id < b.id) (hd : HandledOk s.log svc b.id) : HandledOk s.log svc a.id :=
  (ord_reachable hcalm hnoexp hcount h).gaps a ha b hb has hbs hi hd

namespace ODemo
open LDemo
def fev (i : Nat) : DEv := ⟨10 + i, 5, .fifo, 0, i⟩
def frow (i : Nat) : EvRow := ⟨i, fev i, 0⟩
def frec (id i : Nat) : Rec := ⟨id, 7, i, 0, .init, 0, 0⟩
end ODemo
open LDemo ODemo

/-- **C44** fails when dispatches overlap (or one dies between its two inserts): event 1 is stored, its delivery record not yet; event 2 of the same sender is dispatched completely. The predecessor of event 2 has no record, so
event 2 is handled, and event 1 afterwards. All workers are well-behaved. -/
theorem C44_dispatch_race : ∃ s, Reachable (cfg (limitRetry 3)) strict s ∧ s.log.filter (fun x => decide (x.isCall 7 1 = true ∨ x.isCall 7 2 = true ∨ x.isOk 7 2 = true)) =
    [.called 7 1 (frow 1) 1, .returned 7 2 (frow 2) .ok 1 true, .called 7 2 (frow 2) 1] :=
  script_reaches' ([.register 7, .insert [fev 1], .insert [fev 2], .list [frow 2], .recs [frow 2] 7 [], .tick 1] ++ scan7 [frec 1 2] ++
    [.call (job (frec 1 2) (frow 2)), .finish (job (frec 1 2) (frow 2)) .ok, .list [frow 1], .recs [frow 1] 7 []] ++ scan7 [frec 2 1] ++ [.call (job (frec 2 1) (frow 1))]) (by decide +kernel)

/-- **C44** With manual expiry: event 2 is expired while event 1 is still pending (and failing); event 3 is handled before event 1. -/
theorem C44_expired_gap : ∃ s, Reachable (cfg (limitRetry 3)) ⟨true, true, true, false, 0⟩ s ∧ Log.returned 7 3 (frow 3) .ok 1 true ∈ s.log ∧ ¬ HandledOk s.log 7 1 ∧ Pending s.db 7 1 := by
  unfold HandledOk Pending
  exact script_reaches' ([.register 7, .insert [fev 1, fev 2, fev 3], .list [frow 1, frow 2, frow 3], .recs [frow 1, frow 2, frow 3] 7 [], .tick 1] ++ scan7 [frec 1 1, frec 2 2, frec 3 3] ++
    [.expire (frec 2 2), .call (job (frec 3 3) (frow 3)), .finish (job (frec 3 3) (frow 3)) .ok]) (by decide +kernel)

/-! a concrete execution meeting all circumstances -/

instance (log : List Log) (svc eid : Nat) : Decidable (HandledOk log svc eid) := by unfold HandledOk; infer_instance
instance (a b : EvRow) : Decidable (Before a b) := by unfold Before; infer_instance

theorem inOrder_iff (σ svc : Nat) (s : State) : InOrder σ svc s ↔
    (∀ e ∈ s.db.events, e.ev.sender = σ → e.ev.sendType = .fifo) ∧
    (∀ a ∈ s.db.events, ∀ b ∈ s.db.events, a.ev.sender = σ → b.ev.sender = σ → a.id < b.id → Before a b) ∧
    (∀ a ∈ s.db.events, ∀ b ∈ s.db.events, a.ev.sender = σ → b.ev.sender = σ → a.id < b.id → Log.stored svc b.id ∈ s.log → Log.stored svc a.id ∈ s.log) ∧
    (∀ j ∈ s.pend, j.svc = svc → ∀ e ∈ s.db.events, e.ev.sender = σ → e.id < j.start → HandledOk s.log svc e.id) ∧
    (∀ r ∈ s.db.recs, r.service = svc → ∃ e ∈ s.db.events, e.id = r.eventId) :=
  ⟨fun h => ⟨h.fifo, h.created, h.recorded, h.window, h.kept⟩, fun h => ⟨h.1, h.2.1, h.2.2.1, h.2.2.2.1, h.2.2.2.2⟩⟩

set_option synthInstance.maxHeartbeats 400000 in
set_option synthInstance.maxSize 2000 in
instance (σ svc : Nat) (s : State) : Decidable (InOrder σ svc s) := decidable_of_iff' _ (inOrder_iff σ svc s)

def orderedScript (c : Cfg) (pol : Pol) (σ svc : Nat) (acts : List Act) : Option State :=
  acts.foldlM (fun s a => (a.run c pol s).bind fun s' => if InOrder σ svc s' then some s' else none) State.init

theorem orderedScript_sound {c : Cfg} {pol : Pol} {σ svc : Nat} {acts : List Act} {s : State} (h : orderedScript c pol σ svc acts = some s) : OrderedReachable c pol σ svc s := by
  have key : ∀ (acts : List Act) (s0 : State), OrderedReachable c pol σ svc s0 →
      acts.foldlM (fun s a => (a.run c pol s).bind fun s' => if InOrder σ svc s' then some s' else none) s0 = some s → OrderedReachable c pol σ svc s := by
    intro acts
    induction acts with
    | nil => intro s0 hr h; cases h; exact hr
    | cons a acts ih =>
      intro s0 hr h
      simp only [List.foldlM_cons, Option.bind_eq_bind, Option.bind_eq_some_iff] at h
      obtain ⟨s1, ⟨s2, h1, h2⟩, h3⟩ := h
      split at h2
      · rename_i ho
        cases h2
        exact ih s1 (.step hr (Act.sound h1) ho) h3
      · cases h2
  exact key acts _ .init h

theorem orderedScript_reaches {c : Cfg} {pol : Pol} {σ svc : Nat} {acts : List Act} {p : State → Prop} [DecidablePred p] (h : (orderedScript c pol σ svc acts).any (fun s => decide (p s)) = true) :
    ∃ s, OrderedReachable c pol σ svc s ∧ p s := by
  cases hs : orderedScript c pol σ svc acts with
  | none => rw [hs] at h; simp at h
  | some s => rw [hs] at h; exact ⟨s, orderedScript_sound hs, of_decide_eq_true h⟩

/-- Two FIFO events of one sender and one of another sender; the second worker of the service overlaps. Event 1 fails first, event 2 is blocked meanwhile, then both are handled; here event 2 is under way. -/
theorem bus_order_demo : ∃ s, OrderedReachable (cfg (limitRetry 3)) ⟨true, false, false, true, 0⟩ 5 7 s ∧ (∃ j ∈ s.busy, j.svc = 7 ∧ j.t.e = frow 2) ∧ HandledOk s.log 7 1 ∧ failures s.log 7 1 = 1 ∧
    Log.stored 7 1 ∈ s.log := by
  have : ((orderedScript (cfg (limitRetry 3)) ⟨true, false, false, true, 0⟩ 5 7 ([.register 7, .insert [fev 1, fev 2, ev 3], .list [frow 1, frow 2, row 3], .recs [frow 1, frow 2, row 3] 7 [], .tick 1] ++
    scan7 [frec 1 1, frec 2 2, rec7 3] ++ [.call (job (frec 1 1) (frow 1)), .blocked (job (frec 2 2) (frow 2)), .finish (job (frec 1 1) (frow 1)) .err] ++
    scan7 [{ frec 1 1 with retry := 1, next := 1 }, frec 2 2, rec7 3] ++
    [.call (job { frec 1 1 with retry := 1, next := 1 } (frow 1)), .finish (job { frec 1 1 with retry := 1, next := 1 } (frow 1)) .ok, .call (job (frec 2 2) (frow 2))])).any fun s =>
      decide ((∃ j ∈ s.busy, j.svc = 7 ∧ j.t.e = frow 2) ∧ HandledOk s.log 7 1 ∧ failures s.log 7 1 = 1 ∧ Log.stored 7 1 ∈ s.log)) = true := by decide +kernel
  exact orderedScript_reaches this

end Ddd.Bus
