import Verif.Model.TxRace
set_option linter.unusedVariables false
/-!
# C128: transactional events under overlapping commits, rollbacks and check-backs
-/
namespace Ddd.TxRace
variable {pol : Pol} {s s' : State}

/-! ## Specification -/

/-- How often the events of transaction `t` were stored. -/
def storedTimes (t : Nat) (log : List Note) : Nat := log.countP fun n => n == .stored t .client || n == .stored t .checkback

/-! ## Invariants -/

/-- what holds of the rows and of the check-backs under way -/
structure Rows (s : State) : Prop where
  begun : ∀ r ∈ s.txs, .begun r ∈ s.log
  lt : ∀ r, .begun r ∈ s.log → r.id < s.nextTx
  uniq : ∀ r r', .begun r ∈ s.log → .begun r' ∈ s.log → r.id = r'.id → r = r'
  held : ∀ i c, s.chk i = some c → ∀ t ∈ c.locked, ∃ r ∈ s.txs, r.id = t ∧ r.due < s.now
  excl : ∀ i j c d, s.chk i = some c → s.chk j = some d → ∀ t ∈ c.locked, t ∈ d.locked → i = j
  todo : ∀ i c, s.chk i = some c → ∀ r ∈ c.todo, r.id ∈ c.locked
  ins : ∀ i c, s.chk i = some c → ∀ t ∈ c.ins, t ∈ c.locked
  del : ∀ i c, s.chk i = some c → ∀ t ∈ c.del, t ∈ c.locked

theorem rows_step (h : Rows s) (st : Step pol s s') : Rows s' := by
  obtain ⟨h1, h2, h3, h4, h5, h6, h7, h8⟩ := h
  cases st with
  | select i svc t0 ht hi hl =>
    refine ⟨h1, h2, h3, ?_, ?_, ?_, ?_, ?_⟩ <;> simp only [put, State.locked] at * <;> grind
  | begin => refine ⟨?_, ?_, ?_, ?_, ?_, ?_, ?_, ?_⟩ <;> simp only [put] at * <;> grind
  | _ => refine ⟨?_, ?_, ?_, ?_, ?_, ?_, ?_, ?_⟩ <;> simp only [put, State.locked, Check.next] at * <;> grind [→ List.mem_of_mem_tail]

theorem rows {s : State} (h : Reachable pol s) : Rows s := by
  induction h with
  | init => refine ⟨?_, ?_, ?_, ?_, ?_, ?_, ?_, ?_⟩ <;> simp [State.init]
  | step _ st ih => exact rows_step ih st

/-- what the log says about why events are stored -/
structure Why (s : State) : Prop where
  ins : ∀ i c, s.chk i = some c → ∀ t ∈ c.ins, .asked t .commit ∈ s.log
  pos : ∀ i c, s.chk i = some c → c.pos ≠ none → ∀ r rest, c.todo = r :: rest → .asked r.id .commit ∈ s.log
  byCheck : ∀ t, .stored t .checkback ∈ s.log → .asked t .commit ∈ s.log
  byClient : ∀ t, .stored t .client ∈ s.log → .commitCalled t ∈ s.log
  call : ∀ k c, s.cl k = some c → .commitCalled c.tx.id ∈ s.log ∧ .begun c.tx ∈ s.log
  known : ∀ t, .commitCalled t ∈ s.log → t < s.nextTx
  asked : ∀ t a, .asked t a ∈ s.log → t < s.nextTx
  pres : ∀ t ∈ s.present, ∃ w, .stored t w ∈ s.log
  past : ∀ k c, s.cl k = some c → c.pos = .recs ∨ c.pos = .delete → .stored c.tx.id .client ∈ s.log

set_option maxHeartbeats 4000000 in
theorem why_step (hr : Rows s) (h : Why s) (st : Step pol s s') : Why s' := by
  obtain ⟨r1, r2, r3, r4, r5, r6, r7, r8⟩ := hr
  obtain ⟨h1, h2, h3, h4, h5, h6, h7, h8, h9⟩ := h
  have hd : ∀ i c r rest, s.chk i = some c → c.todo = r :: rest → r.id < s.nextTx := by
    intro i c r rest hc ht
    obtain ⟨x, hx, hxi, -⟩ := r4 i c hc r.id (r6 i c hc r (by rw [ht]; exact List.mem_cons_self))
    rw [← hxi]
    exact r2 x (r1 x hx)
  clear r3 r5 r8
  cases st <;> (refine ⟨?_, ?_, ?_, ?_, ?_, ?_, ?_, ?_, ?_⟩ <;> simp only [put, Check.next] at * <;> grind)

theorem why {s : State} (h : Reachable pol s) : Why s := by
  induction h with
  | init => refine ⟨?_, ?_, ?_, ?_, ?_, ?_, ?_, ?_, ?_⟩ <;> simp [State.init]
  | step hr st ih => exact why_step (rows hr) ih st

/-- what can not come after the end of a transaction -/
def Over (later earlier : Note) : Prop := ∀ t, earlier = .rolledBack t ∨ earlier = .settled t → (∀ a, later ≠ .asked t a) ∧ later ≠ .stored t .checkback

/-- a row that was deleted stays deleted, and the log is in order -/
structure Ends (s : State) : Prop where
  gone : ∀ t, .rolledBack t ∈ s.log ∨ .settled t ∈ s.log → t < s.nextTx ∧ ∀ r ∈ s.txs, r.id ≠ t
  order : s.log.Pairwise Over
  done : ∀ l1 t l2, s.log = l1 ++ .commitDone t :: l2 → ∃ w, .stored t w ∈ l2

theorem over_fresh {n : Note} {l : List Note} (h : l.Pairwise Over) (hn : ∀ e ∈ l, Over n e) : (n :: l).Pairwise Over := List.pairwise_cons.2 ⟨hn, h⟩

/-- a note that is neither a question nor an insert of a check-back may come at any time -/
theorem over_easy {n : Note} (h1 : ∀ t a, n ≠ .asked t a) (h2 : ∀ t, n ≠ .stored t .checkback) (e : Note) : Over n e := fun t _ => ⟨fun a => h1 t a, h2 t⟩

theorem done_cons {n : Note} {l : List Note} (h : ∀ l1 t l2, l = l1 ++ .commitDone t :: l2 → ∃ w, .stored t w ∈ l2) (hn : ∀ t, n = .commitDone t → ∃ w, .stored t w ∈ l) :
    ∀ l1 t l2, n :: l = l1 ++ .commitDone t :: l2 → ∃ w, .stored t w ∈ l2 := by
  intro l1 t l2 he
  cases l1 with
  | nil => simp only [List.nil_append, List.cons.injEq] at he; obtain ⟨h1, rfl⟩ := he; exact hn t h1
  | cons a l1 => simp only [List.cons_append, List.cons.injEq] at he; exact h l1 t l2 he.2

theorem done_append {l' l : List Note} (h : ∀ l1 t l2, l = l1 ++ .commitDone t :: l2 → ∃ w, .stored t w ∈ l2) (hn : ∀ t, .commitDone t ∉ l') :
    ∀ l1 t l2, l' ++ l = l1 ++ .commitDone t :: l2 → ∃ w, .stored t w ∈ l2 := by
  induction l' with
  | nil => exact h
  | cons a l' ih =>
    refine done_cons (ih fun t => ?_) ?_
    · intro hm; exact hn t (List.mem_cons_of_mem _ hm)
    · intro t ht; exact absurd (by rw [ht]; exact List.mem_cons_self) (hn t)

set_option maxHeartbeats 4000000 in
theorem ends_step (hr : Rows s) (hw : Why s) (h : Ends s) (st : Step pol s s') : Ends s' := by
  obtain ⟨h1, h2, h3⟩ := h
  -- a locked row is not gone
  have hg : ∀ i c t, s.chk i = some c → t ∈ c.locked → .rolledBack t ∉ s.log ∧ .settled t ∉ s.log := by
    intro i c t hc ht
    obtain ⟨x, hx, hxi, -⟩ := hr.held i c hc t ht
    constructor <;> intro hm
    · exact (h1 t (.inl hm)).2 x hx hxi
    · exact (h1 t (.inr hm)).2 x hx hxi
  have hask : ∀ i c r rest a, s.chk i = some c → c.todo = r :: rest → ∀ e ∈ s.log, Over (.asked r.id a) e := by
    intro i c r rest a hc ht e he t hk
    have hl := hr.todo i c hc r (by rw [ht]; exact List.mem_cons_self)
    refine ⟨fun b hb => ?_, by simp⟩
    simp only [Note.asked.injEq] at hb
    obtain ⟨rfl, -⟩ := hb
    rcases hk with rfl | rfl
    · exact (hg i c _ hc hl).1 he
    · exact (hg i c _ hc hl).2 he
  have hb := hr.begun
  have hlt := hr.lt
  cases st with
  | tick | recs | lookNone | clientDrop | select | chkFound | chkNone | chkInsert | chkRecs | chkDelete | chkError | chkDie | clean => exact ⟨h1, h2, h3⟩
  | begin svc t0 timeout ht => exact ⟨by grind, over_fresh h2 fun e _ => over_easy (by simp) (by simp) e, done_cons h3 (by simp)⟩
  | commitCall => exact ⟨by grind, over_fresh h2 fun e _ => over_easy (by simp) (by simp) e, done_cons h3 (by simp)⟩
  | lookFound k tx hk hp =>
    exact ⟨by grind, over_fresh h2 fun e _ => over_easy (by simp) (by simp) e, done_cons h3 (by simp only [Note.commitDone.injEq]; rintro t rfl; exact hw.pres _ hp)⟩
  | insert => exact ⟨by grind, over_fresh h2 fun e _ => over_easy (by simp) (by simp) e, done_cons h3 (by simp)⟩
  | delete k tx hk hl =>
    exact ⟨by grind, over_fresh h2 fun e _ => over_easy (by simp) (by simp) e,
      done_cons h3 (by simp only [Note.commitDone.injEq]; rintro t rfl; exact ⟨_, hw.past k _ hk (.inr rfl)⟩)⟩
  | rollback tx hb' hl =>
    refine ⟨?_, over_fresh h2 fun e _ => over_easy (by simp) (by simp) e, done_cons h3 (by simp)⟩
    have := hlt tx hb'
    grind
  | askUnknown i c r rest hi ht hp => exact ⟨by grind, over_fresh h2 (hask i c r rest _ hi ht), done_cons h3 (by simp)⟩
  | askCommit i c r rest hi ht hp => exact ⟨by grind, over_fresh h2 (hask i c r rest _ hi ht), done_cons h3 (by simp)⟩
  | askRollback i c r rest hi ht hp => exact ⟨by grind, over_fresh h2 (hask i c r rest _ hi ht), done_cons h3 (by simp)⟩
  | askRollbackErr i c r rest hi ht hp => exact ⟨by grind, over_fresh h2 (hask i c r rest _ hi ht), done_cons h3 (by simp)⟩
  | chkEnd i c hi ht =>
    refine ⟨?_, ?_, done_append (done_append h3 (by simp)) (by simp)⟩
    · intro t hm
      simp only [List.mem_append, List.mem_map, reduceCtorEq, and_false, exists_false, false_or, Note.settled.injEq, exists_eq_right] at hm
      have : t ∈ c.del ∨ (.rolledBack t ∈ s.log ∨ .settled t ∈ s.log) := by tauto
      rcases this with hm | hm
      · obtain ⟨x, hx, hxi, -⟩ := hr.held i c hi t (hr.del i c hi t hm)
        refine ⟨hxi ▸ hlt x (hb x hx), ?_⟩
        intro r hr' hri
        simp only [List.mem_filter, decide_eq_true_eq] at hr'
        exact hr'.2 (hri ▸ hm)
      · obtain ⟨a, b⟩ := h1 t hm
        exact ⟨a, fun r hr' => b r (List.mem_filter.1 hr').1⟩
    · refine List.pairwise_append.2 ⟨?_, List.pairwise_append.2 ⟨?_, h2, ?_⟩, ?_⟩
      · refine List.pairwise_map.2 (List.pairwise_of_forall fun a b => over_easy (by simp) (by simp) _)
      · refine List.pairwise_map.2 (List.pairwise_of_forall fun a b t hk => ?_)
        simp at hk
      · intro x hx e he t hk
        obtain ⟨u, hu, rfl⟩ := List.mem_map.1 hx
        refine ⟨by simp, ?_⟩
        rintro hut
        simp only [Note.stored.injEq, and_true] at hut
        subst hut
        have := hg i c u hi (hr.ins i c hi u hu)
        rcases hk with rfl | rfl
        · exact this.1 he
        · exact this.2 he
      · intro x hx e he
        obtain ⟨u, hu, rfl⟩ := List.mem_map.1 hx
        exact over_easy (by simp) (by simp) e

theorem ends_all {s : State} (h : Reachable pol s) : Ends s := by
  induction h with
  | init => refine ⟨?_, ?_, ?_⟩ <;> simp [State.init]
  | step hr st ih => exact ends_step (rows hr) (why hr) ih st

/-! ## At most once -/

/-- where a transaction can still be stored, it is not yet -/
structure Fresh (s : State) : Prop where
  same : ∀ k k' c c', s.cl k = some c → s.cl k' = some c' → c.tx.id = c'.tx.id → k = k'
  early : ∀ k c, s.cl k = some c → c.pos = .look ∨ c.pos = .insert → .stored c.tx.id .client ∉ s.log
  late : ∀ t, .stored t .checkback ∈ s.log → ∀ r, .begun r ∈ s.log → r.id = t → r.due < s.now
  open' : ∀ r ∈ s.txs, ∀ w, .stored r.id w ∈ s.log → r.id ∈ s.present
  ins : ∀ i c, s.chk i = some c → ∀ t ∈ c.ins, t ∉ s.present
  nodup : ∀ i c, s.chk i = some c → c.ins.Nodup
  snap : ∀ i c l, s.chk i = some c → c.snap = some l → ∀ t ∈ c.locked, (t ∈ l ↔ t ∈ s.present)
  insert : ∀ i c, s.chk i = some c → c.pos = some .insert → ∀ r rest, c.todo = r :: rest → r.id ∉ s.present ∧ r.id ∉ c.ins

set_option maxHeartbeats 8000000 in
theorem fresh_step (h1 : pol.once = true) (h2 : pol.prompt = true) (h3 : pol.keep = true) (hr : Rows s) (hw : Why s) (h : Fresh s) (st : Step pol s s') : Fresh s' := by
  obtain ⟨f1, f2, f3, f4, f5, f6, f7, f8⟩ := h
  -- a client in time and a check-back do not meet
  have apart : ∀ k tx p i c, s.cl k = some ⟨tx, p⟩ → s.now ≤ tx.due → s.chk i = some c → tx.id ∉ c.locked := by
    intro k tx p i c hk hn hc hm
    obtain ⟨x, hx, hxi, hd⟩ := hr.held i c hc _ hm
    have := hr.uniq x tx (hr.begun x hx) (hw.call k _ hk).2 hxi
    subst this; omega
  have known : ∀ t w, .stored t w ∈ s.log → t < s.nextTx := by
    intro t w ht
    cases w
    · exact hw.known t (hw.byClient t ht)
    · exact hw.asked t _ (hw.byCheck t ht)
  have lockedDue : ∀ i c t, s.chk i = some c → t ∈ c.locked → ∀ r, .begun r ∈ s.log → r.id = t → r.due < s.now := by
    intro i c t hc ht r hb hri
    obtain ⟨x, hx, hxi, hd⟩ := hr.held i c hc t ht
    have := hr.uniq x r (hr.begun x hx) hb (hxi.trans hri.symm)
    subst this; exact hd
  have hins := hr.ins
  have htodo := hr.todo
  have hexcl := hr.excl
  have hheld : ∀ i c, s.chk i = some c → ∀ t ∈ c.locked, ∃ r ∈ s.txs, r.id = t := fun i c hc t ht => by
    obtain ⟨x, hx, hxi, -⟩ := hr.held i c hc t ht; exact ⟨x, hx, hxi⟩
  have hb := hr.begun
  have hlt := hr.lt
  have hc1 := hw.byClient
  have hc2 := hw.call
  clear hr hw
  have hsnap : ∀ i c, s.chk i = some c → ∀ t ∈ c.locked, (t ∈ c.snap.getD s.present ↔ t ∈ s.present) := by
    intro i c hc t ht
    cases hs : c.snap with
    | none => simp
    | some l => simpa using f7 i c l hc hs t ht
  cases st with
  | chkFound i c r rest hi ht hp h =>
    clear h
    have hs := hsnap i c hi
    clear hsnap h1 h2 h3 apart
    generalize c.snap.getD s.present = l at hs ⊢
    refine ⟨f1, f2, f3, f4, ?_, ?_, ?_, ?_⟩ <;> simp only [put, Check.next] at * <;> grind
  | chkNone i c r rest hi ht hp h =>
    have hl := htodo i c hi r (by rw [ht]; exact List.mem_cons_self)
    have hs := hsnap i c hi
    have hn : r.id ∉ s.present ∧ r.id ∉ c.ins := by
      simp only [sees, Bool.or_eq_false_iff, List.contains_eq_mem, decide_eq_false_iff_not] at h
      refine ⟨fun hm => h.1 ?_, h.2⟩
      split
      · exact (hs _ hl).2 hm
      · exact hm
    clear h hsnap h1 h2 h3 apart
    generalize c.snap.getD s.present = l at hs ⊢
    refine ⟨f1, f2, f3, f4, ?_, ?_, ?_, ?_⟩ <;> simp only [put, Check.next] at * <;> grind
  | _ =>
    clear hsnap
    simp only [h1, h2, h3, forall_const] at *
    refine ⟨?_, ?_, ?_, ?_, ?_, ?_, ?_, ?_⟩ <;> simp only [put, Check.next, sees] at * <;> grind

end Ddd.TxRace
