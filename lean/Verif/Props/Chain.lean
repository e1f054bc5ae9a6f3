import Verif.Spec.Chain
import Verif.Props.Delivery
import Verif.Props.Once
import Verif.Props.BusFifo
/-!
# C123: from a command to the commands handling its events
-/
set_option linter.unusedVariables false
set_option linter.unusedSimpArgs false
namespace Ddd.Bus

/-- every delivery record was stored by a dispatch, according to the log -/
theorem recs_logged {c : Cfg} {pol : Pol} (hfresh : pol.fresh = true) {s : State} (h : Reachable c pol s) : ∀ r ∈ s.db.recs, .stored r.service r.eventId ∈ s.log := by
  induction h with
  | init => intro r hr; simp [State.init] at hr
  | @step s s' h1 hst ih =>
    have hh := held_reachable hfresh h1
    have save : ∀ (x : Rec) (r : Rec), x ∈ s.db.recs → r.service = x.service → r.eventId = x.eventId → ∀ y ∈ (saveRec s.db r).recs, .stored y.service y.eventId ∈ s.log := by
      intro x r hx h1 h2 y hy
      simp only [saveRec, List.mem_map] at hy
      obtain ⟨z, hz, rfl⟩ := hy
      split
      · rw [h1, h2]; exact ih x hx
      · exact ih z hz
    cases hst with
    | register svc => simp only [register]; split <;> exact ih
    | dispRecs ps sv todo hps hu =>
      intro r hr
      rcases List.mem_append.1 hr with hr | hr
      · exact List.mem_append_right _ (ih r hr)
      · obtain ⟨p, hp1, hp2⟩ := newRecs_fresh hr
        refine List.mem_append_left _ (List.mem_map.2 ⟨p, hp1, ?_⟩)
        rw [hp2.2.1, newRecs_service hr]
    | call j hj hl hx hs hm hf => intro r hr; exact List.mem_cons_of_mem _ (ih r hr)
    | blocked j hj hl hx hs hm hf => exact save _ _ (hf hfresh) rfl rfl
    | finish j ret hj t0 ht =>
      intro r hr
      refine List.mem_cons_of_mem _ (save j.t.r _ (hh j hj) ?_ ?_ r hr)
      · cases ret <;> simp only [afterCall, retryStep] <;> (split <;> rfl)
      · cases ret <;> simp only [afterCall, retryStep] <;> (split <;> rfl)
    | finishLost j ret hj hp t0 ht => intro r hr; exact List.mem_cons_of_mem _ (ih r hr)
    | cleanRecs svc b rest h hl => intro r hr; exact ih r (List.mem_of_mem_filter hr)
    | expire r hr hl hp => intro y hy; exact List.mem_cons_of_mem _ (save r { r with status := .expired } hr rfl rfl y hy)
    | _ => exact ih

/-- rows are only added with new IDs, and services are never removed -/
structure Later (db db' : DB) : Prop where
  events : ∀ e ∈ db'.events, e ∈ db.events ∨ db.nextEv ≤ e.id
  nextEv : db.nextEv ≤ db'.nextEv
  services : ∀ v ∈ db.services, v ∈ db'.services

theorem Later.refl (db : DB) : Later db db := ⟨fun _ h => .inl h, Nat.le_refl _, fun _ h => h⟩

theorem Later.trans {a b d : DB} (h1 : Later a b) (h2 : Later b d) : Later a d := by
  refine ⟨fun e he => ?_, Nat.le_trans h1.nextEv h2.nextEv, fun v hv => h2.services v (h1.services v hv)⟩
  rcases h2.events e he with h | h
  · exact h1.events e h
  · exact .inr (Nat.le_trans h1.nextEv h)

theorem Added.later {tid : Nat} {db db' : DB} (h : Added tid db db') : Later db db' := by
  obtain ⟨ps, h1, h2⟩ := h.events
  refine ⟨fun e he => ?_, h.nextEv, by rw [h.services]; exact fun _ h => h⟩
  rw [h1] at he
  rcases List.mem_append.1 he with he | he
  · exact .inl he
  · exact .inr (h2 e he).2

theorem later_deleteTx (db : DB) (i : Nat) : Later db (deleteTx db i) := ⟨fun _ h => .inl h, Nat.le_refl _, fun _ h => h⟩

theorem later_commit (db : DB) (tx : TxRow) (n : Nat) : Later db (commit db tx n).1 := by
  rcases commit_cases db tx n with h | ⟨d, hd, h | h⟩
  · rw [h]; exact .refl _
  · rw [h]; exact hd.later
  · rw [h]; exact hd.later.trans (later_deleteTx ..)

theorem later_checks (ask : DEv → TxAns) (ns : Nat → Nat) (l : List TxRow) : ∀ db, Later db (l.foldl (fun d t => checkTx ask d t (ns t.id)) db) := by
  induction l with
  | nil => intro db; exact .refl _
  | cons t l ih =>
    intro db
    refine Later.trans ?_ (ih _)
    show Later db (checkTx ask db t (ns t.id))
    unfold checkTx
    split
    · exact .refl _
    · split
      · exact .refl _
      · exact later_commit ..
      · unfold rollback; split
        · exact later_deleteTx ..
        · exact .refl _

theorem later_apply {db : DB} (hv : Valid db) (op : Op) : Later db (op.apply db) := by
  cases op with
  | dispatch es n => exact (added_dispatch db 0 es n).later
  | begin svc now timeout es ok =>
    simp only [Op.apply, dispatchBegin]
    split
    · exact .refl _
    · split
      · exact .refl _
      · exact ⟨fun _ h => .inl h, Nat.le_refl _, fun _ h => h⟩
  | commit tx n => simp only [Op.apply]; split; exacts [later_commit .., .refl _]
  | rollback tx ok =>
    simp only [Op.apply, rollback]
    split
    · split; exacts [later_deleteTx .., .refl _]
    · exact .refl _
  | check ask svc now ns => exact later_checks _ _ _ _
  | register svc =>
    simp only [Op.apply, register]
    split
    · exact .refl _
    · exact ⟨fun _ h => .inl h, Nat.le_refl _, fun _ h => by simp [h]⟩
  | run c svc now ans =>
    have h := same_handleEvents (c := c) (svc := svc) (now := now) (ans := ans) hv.recIds
    exact ⟨fun e he => .inl (h.events ▸ he), Nat.le_of_eq h.nextEv.symm, fun v hv => by rw [Op.apply, h.services]; exact hv⟩
  | clean c svc now =>
    have h := removed_clean (c := c) (svc := svc) (now := now) (db := db)
    exact ⟨fun e he => .inl (h.events.subset he), Nat.le_of_eq h.nextEv.symm, fun v hv => by rw [Op.apply, h.services]; exact hv⟩

theorem handleAllLog_rows {c : Cfg} {svc start now : Nat} {ans : Nat → DEv → Ret} {x : Log} : ∀ (ts : List Tuple) (i : Nat) (db : DB), x ∈ handleAllLog c svc start now ans i ts db →
    ∃ t ∈ ts, ∃ a, x = .called svc t.r.eventId t.e now ∨ x = .returned svc t.r.eventId t.e a now true := by
  intro ts
  induction ts with
  | nil => intro i db hx; simp [handleAllLog] at hx
  | cons t ts ih =>
    intro i db hx
    rcases List.mem_append.1 hx with hx | hx
    · obtain ⟨t', ht, h⟩ := ih _ _ hx
      exact ⟨t', List.mem_cons_of_mem _ ht, h⟩
    · unfold handleLog at hx
      split at hx
      · simp at hx
      · rename_i y _
        rcases List.mem_cons.1 hx with rfl | hx
        · exact ⟨t, by simp, ans i y, .inr rfl⟩
        · simp at hx; subst hx
          exact ⟨t, by simp, .ok, .inl rfl⟩

theorem handleAllLog_called {c : Cfg} {svc start now : Nat} {ans : Nat → DEv → Ret} {v i t : Nat} {e : EvRow} {a : Ret} {b : Bool} : ∀ (ts : List Tuple) (k : Nat) (db : DB),
    .returned v i e a t b ∈ handleAllLog c svc start now ans k ts db → .called v i e t ∈ handleAllLog c svc start now ans k ts db := by
  intro ts
  induction ts with
  | nil => intro k db hx; simp [handleAllLog] at hx
  | cons u ts ih =>
    intro k db hx
    rcases List.mem_append.1 hx with hx | hx
    · exact List.mem_append_left _ (ih _ _ hx)
    · refine List.mem_append_right _ ?_
      unfold handleLog at hx ⊢
      split at hx
      · simp at hx
      · rename_i y hy
        rcases List.mem_cons.1 hx with hx | hx
        · cases hx; simp
        · simp at hx

/-- a handler that returned was called -/
theorem opsLog_called {v i t : Nat} {e : EvRow} {a : Ret} {b : Bool} : ∀ (ops : List Op) (db : DB), .returned v i e a t b ∈ opsLog db ops → .called v i e t ∈ opsLog db ops := by
  intro ops
  induction ops with
  | nil => intro db h; simp [opsLog] at h
  | cons op ops ih =>
    intro db h
    rcases List.mem_append.1 h with h | h
    · exact List.mem_append_left _ (ih _ h)
    · refine List.mem_append_right _ ?_
      cases op with
      | dispatch es n => obtain ⟨_, _, h⟩ := dispatchLog_stored _ _ _ _ _ h; cases h
      | commit tx n =>
        simp only [Op.log] at h
        split at h
        · obtain ⟨_, _, h⟩ := commitLog_stored _ _ _ _ h; cases h
        · simp at h
      | check ask svc now ns => obtain ⟨_, _, h⟩ := checksLog_stored _ _ _ _ _ h; cases h
      | run c svc now ans =>
        simp only [Op.log, runLog] at h ⊢
        split at h
        · simp at h
        · rename_i start hs
          exact handleAllLog_called _ _ _ h
      | _ => simp [Op.log] at h

/-- an operation adds stored records to the log, or handler calls with rows that are in the table -/
theorem log_rows {db : DB} {op : Op} {x : Log} (hx : x ∈ op.log db) :
    (∃ a b, x = .stored a b) ∨ ∃ e ∈ db.events, ∃ v i t a, x = .called v i e t ∨ x = .returned v i e a t true := by
  cases op with
  | dispatch es n => exact .inl (dispatchLog_stored _ _ _ _ x hx)
  | begin => simp [Op.log] at hx
  | commit tx n =>
    simp only [Op.log] at hx
    split at hx
    · exact .inl (commitLog_stored _ _ _ x hx)
    · simp at hx
  | rollback => simp [Op.log] at hx
  | check ask svc now ns => exact .inl (checksLog_stored _ _ _ _ x hx)
  | register => simp [Op.log] at hx
  | run c svc now ans =>
    simp only [Op.log, runLog] at hx
    split at hx
    · simp at hx
    · rename_i start _
      obtain ⟨t, ht, a, h⟩ := handleAllLog_rows _ _ _ hx
      exact .inr ⟨t.e, (mem_pairUp ht).2, svc, _, now, a, h⟩
  | clean => simp [Op.log] at hx

end Ddd.Bus

namespace Ddd.Chain
open Spec Bus

section
variable {db0 d : DB} {H : List (DB × DB)} {ops : List Bus.Op}

theorem Behind.run (h : Behind db0 H ops d) : d = runOps db0 ops := by
  induction h with
  | start => rfl
  | op o _ ih => rw [runOps_append, ← ih]; rfl
  | idle _ ih => exact ih

theorem Behind.valid (hv : Valid db0) (h : Behind db0 H ops d) : Valid d := by rw [h.run]; exact valid_runOps hv ops

theorem Behind.prefix (h : Behind db0 H ops d) : ∀ H1 H2, H = H1 ++ H2 → ∃ ops1 ops2 d1, ops = ops1 ++ ops2 ∧ Behind db0 H1 ops1 d1 ∧ (∀ s H', H2 = s :: H' → d1 = s.1) ∧ (H2 = [] → d1 = d) := by
  induction h with
  | start => intro H1 H2 h; obtain ⟨rfl, rfl⟩ := List.append_eq_nil_iff.1 h.symm; exact ⟨[], [], db0, rfl, .start, by simp, fun _ => rfl⟩
  | @op H ops d o hb ih =>
    intro H1 H2 h
    rcases List.eq_nil_or_concat H2 with rfl | ⟨H2', x, rfl⟩
    · rw [List.append_nil] at h; subst h
      exact ⟨ops ++ [o], [], _, by simp, .op o hb, by simp, fun _ => rfl⟩
    · rw [List.concat_eq_append, ← List.append_assoc] at h
      obtain ⟨h1, h2⟩ := List.append_inj' h rfl
      obtain ⟨ops1, ops2, d1, g1, g2, g3, g4⟩ := ih H1 H2' h1
      refine ⟨ops1, ops2 ++ [o], d1, by rw [g1]; simp, g2, ?_, by simp⟩
      intro s H' he
      cases H2' with
      | nil =>
        simp only [List.concat_eq_append, List.nil_append, List.cons.injEq] at he
        rw [← he.1]
        simp only [List.cons.injEq, and_true] at h2
        rw [← h2]; exact g4 rfl
      | cons y l =>
        simp only [List.concat_eq_append, List.cons_append, List.cons.injEq] at he
        rw [← he.1]; exact g3 y l rfl
  | @idle H ops d hb ih =>
    intro H1 H2 h
    rcases List.eq_nil_or_concat H2 with rfl | ⟨H2', x, rfl⟩
    · rw [List.append_nil] at h; subst h
      exact ⟨ops, [], _, by simp, .idle hb, by simp, fun _ => rfl⟩
    · rw [List.concat_eq_append, ← List.append_assoc] at h
      obtain ⟨h1, h2⟩ := List.append_inj' h rfl
      obtain ⟨ops1, ops2, d1, g1, g2, g3, g4⟩ := ih H1 H2' h1
      refine ⟨ops1, ops2, d1, g1, g2, ?_, by simp⟩
      intro s H' he
      cases H2' with
      | nil =>
        simp only [List.concat_eq_append, List.nil_append, List.cons.injEq] at he
        rw [← he.1]
        simp only [List.cons.injEq, and_true] at h2
        rw [← h2]; exact g4 rfl
      | cons y l =>
        simp only [List.concat_eq_append, List.cons_append, List.cons.injEq] at he
        rw [← he.1]; exact g3 y l rfl

theorem Behind.later (hv : Valid db0) (h : Behind db0 H ops d) : H.Pairwise (fun a b => Later a.2 b.1) ∧ ∀ s ∈ H, Later s.1 s.2 ∧ Later s.2 d ∧ Valid s.1 ∧ Valid s.2 := by
  induction h with
  | start => simp
  | @op H ops d o hb ih =>
    have hl := later_apply (hb.valid hv) o
    refine ⟨List.pairwise_append.2 ⟨ih.1, by simp, ?_⟩, ?_⟩
    · intro a ha b hb'; simp at hb'; subst hb'; exact (ih.2 a ha).2.1
    · intro s hs
      rcases List.mem_append.1 hs with hs | hs
      · obtain ⟨h1, h2, h3⟩ := ih.2 s hs
        exact ⟨h1, h2.trans hl, h3⟩
      · simp at hs; subst hs
        exact ⟨hl, .refl _, hb.valid hv, valid_apply (hb.valid hv) o⟩
  | @idle H ops d hb ih =>
    refine ⟨List.pairwise_append.2 ⟨ih.1, by simp, ?_⟩, ?_⟩
    · intro a ha b hb'; simp at hb'; subst hb'; exact (ih.2 a ha).2.1
    · intro s hs
      rcases List.mem_append.1 hs with hs | hs
      · exact ih.2 s hs
      · simp at hs; subst hs
        exact ⟨.refl _, .refl _, hb.valid hv, hb.valid hv⟩

/-- the row of every handler call was in the table before some step -/
theorem Behind.reached (h : Behind db0 H ops d) {e : EvRow} (hr : Reached (opsLog db0 ops) e) : ∃ s ∈ H, e ∈ s.1.events := by
  induction h with
  | start => obtain ⟨v, i, t, h | ⟨_, _, h⟩⟩ := hr <;> simp [opsLog] at h
  | @op H ops d o hb ih =>
    obtain ⟨v, i, t, hr⟩ := hr
    rw [opsLog_append] at hr
    simp only [opsLog, List.nil_append] at hr
    rw [← hb.run] at hr
    have key : ∀ x, x ∈ o.log d ++ opsLog db0 ops → (x = .called v i e t ∨ ∃ ret b, x = .returned v i e ret t b) → ∃ s ∈ H ++ [(d, o.apply d)], e ∈ s.1.events := by
      intro x hx hx'
      rcases List.mem_append.1 hx with hx | hx
      · rcases log_rows hx with ⟨a, b, rfl⟩ | ⟨e', he, v', i', t', a, h⟩
        · rcases hx' with h | ⟨_, _, h⟩ <;> simp at h
        · refine ⟨(d, o.apply d), by simp, ?_⟩
          rcases hx' with rfl | ⟨_, _, rfl⟩ <;> rcases h with h | h <;> simp at h <;> simp_all
      · obtain ⟨s, hs, hse⟩ := ih ⟨v, i, t, by
          rcases hx' with rfl | ⟨ret, b, rfl⟩
          · exact .inl hx
          · exact .inr ⟨_, _, hx⟩⟩
        exact ⟨s, by simp [hs], hse⟩
    rcases hr with h | ⟨ret, b, h⟩
    · exact key _ h (.inl rfl)
    · exact key _ h (.inr ⟨_, _, rfl⟩)
  | idle hb ih => obtain ⟨s, hs, he⟩ := ih hr; exact ⟨s, by simp [hs], he⟩

theorem Behind.none (h : Behind db0 H ops d) {tid : Nat} (h0 : storedOf db0 tid = []) (hn : ∀ s ∈ H, StoresNothing tid s) :
    storedOf d tid = [] ∧ ∀ s ∈ H, storedOf s.1 tid = [] := by
  induction h with
  | start => exact ⟨h0, by simp⟩
  | @op H ops d o hb ih =>
    obtain ⟨h1, h2⟩ := ih fun s hs => hn s (by simp [hs])
    refine ⟨?_, fun s hs => ?_⟩
    · have := hn (d, o.apply d) (by simp)
      simp only [StoresNothing, h1] at this
      exact List.sublist_nil.1 this
    · rcases List.mem_append.1 hs with hs | hs
      · exact h2 s hs
      · simp at hs; subst hs; exact h1
  | @idle H ops d hb ih =>
    obtain ⟨h1, h2⟩ := ih fun s hs => hn s (by simp [hs])
    refine ⟨h1, fun s hs => ?_⟩
    rcases List.mem_append.1 hs with hs | hs
    · exact h2 s hs
    · simp at hs; subst hs; exact h1

theorem Behind.after (h : Behind db0 H ops d) {tid : Nat} : ∀ H1 s H2, H = H1 ++ s :: H2 → (∀ s ∈ H2, StoresNothing tid s) →
    (storedOf d tid).Sublist (storedOf s.2 tid) ∧ ∀ s' ∈ H2, (storedOf s'.1 tid).Sublist (storedOf s.2 tid) := by
  have main : ∀ {H : List (DB × DB)} {d d' : DB}, (∀ H1 s H2, H = H1 ++ s :: H2 → (∀ s ∈ H2, StoresNothing tid s) →
      (storedOf d tid).Sublist (storedOf s.2 tid) ∧ ∀ s' ∈ H2, (storedOf s'.1 tid).Sublist (storedOf s.2 tid)) →
      ∀ H1 s H2, H ++ [(d, d')] = H1 ++ s :: H2 → (∀ s ∈ H2, StoresNothing tid s) →
      (storedOf d' tid).Sublist (storedOf s.2 tid) ∧ ∀ s' ∈ H2, (storedOf s'.1 tid).Sublist (storedOf s.2 tid) := by
    intro H d d' ih H1 s H2 he hn
    rcases List.eq_nil_or_concat H2 with rfl | ⟨H2', x, rfl⟩
    · obtain ⟨-, h2⟩ := List.append_inj' he rfl
      simp only [List.cons.injEq, and_true] at h2
      rw [← h2]; exact ⟨List.Sublist.refl _, by simp⟩
    · rw [List.concat_eq_append, ← List.cons_append, ← List.append_assoc] at he
      obtain ⟨h1, h2⟩ := List.append_inj' he rfl
      simp only [List.cons.injEq, and_true] at h2
      subst h2
      obtain ⟨g1, g2⟩ := ih H1 s H2' h1 fun s hs => hn s (by simp [hs])
      refine ⟨(hn (d, d') (by simp)).trans g1, fun s' hs' => ?_⟩
      rw [List.concat_eq_append] at hs'
      rcases List.mem_append.1 hs' with hs' | hs'
      · exact g2 s' hs'
      · simp at hs'; subst hs'; exact g1
  induction h with
  | start => intro H1 s H2 he; simp at he
  | op o hb ih => exact main ih
  | idle hb ih => exact main ih

end


/-! ## the theorems -/

section
variable {env : Env} {opts : Opts} {cmd : Cmd} {h : Heap}

/-- **C123** No effect without its cause: when a handler of any service is called with an event of the command's transaction, the writes of the command are durable, and the event is one of those the command handed over.
So if the command did not commit, no handler ever hears of it. -/
theorem C123_effect_has_cause_partial {D : Type} {apply : Action → D → D} (hw : opts.withTransaction = true) {S0 d : D} {conv : Event → DEv} {svc timeout : Nat} {fate : Bool} {H : List (DB × DB)} {w : BusWorld}
    (hs : Story conv svc timeout fate (BusWorld.before (emptyDB [])) H w) (hP : w.done <+: (run env opts cmd h).2.trace)
    (hf : Decided apply S0 (run env opts cmd h).2.trace w.done d fate) {ops : List Bus.Op} (hb : Behind (emptyDB []) H ops w.db)
    {tx : TxRow} (hr : w.row = some tx) {e : EvRow} (he : Reached (opsLog (emptyDB []) ops) e) (htx : e.transId = tx.id) :
    fate = true ∧ Writes apply S0 (run env opts cmd h).2.trace d ∧ e.ev ∈ tx.events := by
  have hv := valid_emptyDB (ss := []) List.nodup_nil
  obtain ⟨h1, h2⟩ := C92_atomic_partial hw hv hs hP hf
  obtain ⟨s, hsH, hse⟩ := hb.reached he
  have hst : e ∈ storedOf s.1 tx.id := List.mem_filter.2 ⟨hse, by simp [htx]⟩
  cases fate with
  | false => have := ((h1 rfl).2 tx hr s hsH).1; rw [this] at hst; simp at hst
  | true =>
    refine ⟨rfl, (h2 rfl).1, ?_⟩
    rcases (h2 rfl).2 tx hr with ⟨H1, s0, H2, rfl, g1, g2, g3⟩ | ⟨-, hn⟩
    · have hin : e ∈ storedOf s0.2 tx.id := by
        rcases List.mem_append.1 hsH with hm | hm
        · obtain ⟨ops1, ops2, d1, -, hb1, -, -⟩ := hb.prefix H1 (s0 :: H2) rfl
          have := (hb1.none (tid := tx.id) (by simp [storedOf, emptyDB]) g1).2 s hm
          rw [this] at hst; simp at hst
        · rcases List.mem_cons.1 hm with rfl | hm
          · rw [g2.1] at hst; simp at hst
          · exact ((hb.after H1 s0 H2 rfl g3).2 s hm).subset hst
      rw [← g2.2.1]; exact List.mem_map_of_mem hin
    · have := (hn s hsH).1; rw [this] at hst; simp at hst

/-- **C123** Every cause has its effect, once: when the writes of the command are durable, its transaction is still open on the bus and no handler has heard of it; or its events were stored, all at once, and for each event and
each service registered by then: handlers of the service are called for it with that event, its handler command has committed exactly once, or not yet and the delivery is pending, or not at all after `Limit + 2` failures. Assumed
of the service: one command handler per event type, no panic after the commit, no `ErrBreak` (without them the property is false: `C80_two_handlers`, `C80_late_panic`). -/
theorem C123_effect_once_partial {D : Type} {apply : Action → D → D} (hw : opts.withTransaction = true) {S0 d : D} {conv : Event → DEv} {svc timeout : Nat} {H : List (DB × DB)} {w : BusWorld}
    (hs : Story conv svc timeout true (BusWorld.before (emptyDB [])) H w) (hP : w.done <+: (run env opts cmd h).2.trace)
    (hf : Decided apply S0 (run env opts cmd h).2.trace w.done d true) {ops : List Bus.Op} (hb : Behind (emptyDB []) H ops w.db)
    {c : Cfg} {L : Int} (hL : -1 ≤ L) (hst : c.strategy = limitRetry L ∨ ∃ i, c.strategy = intervalRetry i L) (hT : InTime c 0 ops) {tx : TxRow} (hr : w.row = some tx) :
    (tx ∈ w.db.txs ∧ ∀ e, Reached (opsLog (emptyDB []) ops) e → e.transId ≠ tx.id) ∨
    ∃ H1 s H2, H = H1 ++ s :: H2 ∧ StoresAll tx s ∧ ∀ p ∈ storedOf s.2 tx.id, ∀ v, (∃ s' ∈ H1 ++ [s], v ∈ s'.1.services) →
      (∀ e t, .called v p.id e t ∈ opsLog (emptyDB []) ops → e = p) ∧
      ∀ {W : Consumer.World} {r : Router.Reg} {conv' : EvRow → Router.Event} {ps : List (Nat × List Consumer.Done)}, Consumer.Plays W r conv' v (opsLog (emptyDB []) ops) ps →
        (∃ id k, Consumer.Commands W r (conv' p).typ [(id, k)] ∧ k.opts.withTransaction = true) → Consumer.NoLatePanic (Consumer.runsFor ps p.id) → NoBreak (Consumer.runsFor ps p.id) →
        Consumer.commits ps p.id = 1 ∨
          (Consumer.commits ps p.id = 0 ∧ (Pending w.db v p.id ∨ (failures (opsLog (emptyDB []) ops) v p.id : Int) = L + 2)) := by
  have hv := valid_emptyDB (ss := []) List.nodup_nil
  have hcount : Counting c.strategy := by
    rcases hst with hst | ⟨d, hst⟩ <;> rw [hst]
    · exact counting_limitRetry L
    · exact counting_intervalRetry d L
  obtain ⟨-, h2⟩ := C92_atomic_partial hw hv hs hP hf
  rcases (h2 rfl).2 tx hr with ⟨H1, s, H2, rfl, g1, g2, g3⟩ | ⟨hopen, hn⟩
  · refine .inr ⟨H1, s, H2, rfl, g2, fun p hp v hreg => ?_⟩
    obtain ⟨hpair, hall⟩ := hb.later hv
    -- the service is registered at the step
    have hvs : v ∈ s.1.services := by
      obtain ⟨s', hs', hv'⟩ := hreg
      rcases List.mem_append.1 hs' with hs' | hs'
      · have := (List.pairwise_append.1 hpair).2.2 s' hs' s (by simp)
        exact this.services v ((hall s' (by simp [hs'])).1.services v hv')
      · simp at hs'; subst hs'; exact hv'
    have hps := (List.mem_filter.1 hp).1
    obtain ⟨hl1, hl2, hvs1, hvs2⟩ := hall s (by simp)
    have hnew : s.1.nextEv ≤ p.id := by
      rcases hl1.events p hps with h | h
      · have : p ∈ storedOf s.1 tx.id := List.mem_filter.2 ⟨h, (List.mem_filter.1 hp).2⟩
        rw [g2.1] at this; simp at this
      · exact h
    have hown : ∀ e, Reached (opsLog (emptyDB []) ops) e → e.id = p.id → e = p := by
      intro e he hid
      obtain ⟨s', hs', hse⟩ := hb.reached he
      have hlt := (hall s' hs').2.2.1.evFresh e hse
      have hin : e ∈ s.2.events := by
        rcases List.mem_append.1 hs' with hm | hm
        · have h3 := (List.pairwise_append.1 hpair).2.2 s' hm s (by simp)
          have h4 := (hall s' hs').1.nextEv
          have h5 := h3.nextEv
          omega
        · rcases List.mem_cons.1 hm with rfl | hm
          · omega
          · have h3 := (List.pairwise_cons.1 (List.pairwise_append.1 hpair).2.1).1 s' hm
            rcases h3.events e hse with h4 | h4
            · exact h4
            · have := hvs2.evFresh p hps; omega
      exact List.inj_on_of_nodup_map hvs2.evIds hin hps hid
    refine ⟨fun e t he => hown e ⟨v, p.id, t, .inl he⟩ ((C102_calls hcount hT v p.id).1 e t he), ?_⟩
    intro W r conv' ps hplay hone hlate hbrk
    obtain ⟨now, hreach⟩ := C102_execution hT
    -- the record was stored
    have hstored : .stored v p.id ∈ opsLog (emptyDB []) ops := by
      obtain ⟨ops1, ops2, d1, rfl, hb1, hd1, hd2⟩ := hb.prefix (H1 ++ [s]) H2 (by simp)
      have hT1 : InTime c 0 ops1 := inTime_append hT
      obtain ⟨now1, hreach1⟩ := C102_execution hT1
      have hd : d1 = s.2 := by
        have key : ∀ {H : List (DB × DB)} {ops : List Bus.Op} {d : DB}, Behind (emptyDB []) H ops d → H = H1 ++ [s] → d = s.2 := by
          intro H ops d hb he
          cases hb with
          | start => simp at he
          | op o _ => obtain ⟨-, h⟩ := List.append_inj' he rfl; simp only [List.cons.injEq, and_true] at h; rw [← h]
          | idle _ => obtain ⟨-, h⟩ := List.append_inj' he rfl; simp only [List.cons.injEq, and_true] at h; rw [← h]
        exact key hb1 rfl
      obtain ⟨-, x, hx, hx1, hx2, -⟩ := g2.2.2 p hp v hvs
      have := recs_logged (by rfl) hreach1 x (by show x ∈ (runOps (emptyDB []) ops1).recs; rw [← hb1.run, hd]; exact hx)
      rw [opsLog_append]
      rw [hx1, hx2] at this
      exact List.mem_append_right _ this
    have hret : ∀ e ret t b, Log.returned v p.id e ret t b ∈ opsLog (emptyDB []) ops → e.id = p.id := by
      intro e ret t b hm
      exact (C102_calls hcount hT v p.id).1 e t (opsLog_called _ _ hm)
    obtain ⟨hle, hiff⟩ := Consumer.C80_at_most_once_partial (by rfl) (by rfl) hreach hplay (eid := p.id)
      (fun e ret t b hm => by rw [hown e ⟨v, p.id, t, .inr ⟨ret, b, hm⟩⟩ (hret e ret t b hm)]; exact hone) hlate
    have hiff := hiff hbrk
    rcases C102_no_loss hL hst hT hstored with h1 | h1 | h1
    · by_cases hc : Consumer.commits ps p.id = 1
      · exact .inl hc
      · exact .inr ⟨by omega, .inl (by rw [hb.run]; exact h1)⟩
    · refine .inl (hiff.2 ?_)
      obtain ⟨x, hx, hok⟩ := h1
      cases x with
      | returned sv i e ret t b =>
        simp [Log.isOk] at hok
        obtain ⟨rfl, rfl, -, rfl⟩ := hok
        exact ⟨e, t, b, hx⟩
      | _ => simp [Log.isOk] at hok
    · by_cases hc : Consumer.commits ps p.id = 1
      · exact .inl hc
      · exact .inr ⟨by omega, .inr h1⟩
  · refine .inl ⟨hopen, fun e he htx => ?_⟩
    obtain ⟨s, hsH, hse⟩ := hb.reached he
    have hst : e ∈ storedOf s.1 tx.id := List.mem_filter.2 ⟨hse, by simp [htx]⟩
    have := (hn s hsH).1; rw [this] at hst; simp at hst

theorem deliverAll_append (W : Consumer.World) (r : Router.Reg) (es es' : List Router.Event) : ∀ hist, Consumer.deliverAll W r hist (es ++ es') = Consumer.deliverAll W r (Consumer.deliverAll W r hist es) es' := by
  induction es with
  | nil => intro hist; rfl
  | cons e es ih => intro hist; exact ih _

theorem plays_all {W : Consumer.World} {r : Router.Reg} {conv' : EvRow → Router.Event} {v : Nat} {log : List Log} {ps : List (Nat × List Consumer.Done)} (hp : Consumer.Plays W r conv' v log ps) :
    ∃ es, Consumer.past ps = Consumer.deliverAll W r [] es := by
  induction hp with
  | nil => exact ⟨[], rfl⟩
  | @delivery log ps eid e ret t b ds out _ h2 _ ih =>
    obtain ⟨es, he⟩ := ih
    refine ⟨es ++ [conv' e], ?_⟩
    rw [deliverAll_append, ← he]
    simp only [Consumer.deliverAll, h2]
    simp [Consumer.past]
  | other _ _ ih => exact ih

/-- **C123** What becomes durable at the service: exactly the writes of the handler commands that committed, in the order of their deliveries. -/
theorem C123_state {D : Type} (apply : Action → D → D) {W : Consumer.World} {r : Router.Reg} {conv' : EvRow → Router.Event} {v : Nat} {log : List Log} {ps : List (Nat × List Consumer.Done)}
    (hp : Consumer.Plays W r conv' v log ps) (ht : ∀ i k, W.ctor i = some k → k.opts.withTransaction = true) {S0 : D} {db : Db D}
    (hr : DbRun apply ⟨S0, none⟩ (Consumer.traceOf (Consumer.past ps)) db) : db.openTx = none ∧ Consumer.Effects apply S0 (Consumer.past ps) db.durable := by
  obtain ⟨es, he⟩ := plays_all hp
  rw [he] at hr ⊢
  exact Consumer.C79_effects apply ht es hr

end

end Ddd.Chain
