import Verif.Props.TxRace
set_option linter.unusedVariables false
/-!
# C128: the theorems and the executions that show which assumptions are needed
-/
namespace Ddd.TxRace
variable {pol : Pol} {s s' : State}

theorem fresh_all (h1 : pol.once = true) (h2 : pol.prompt = true) (h3 : pol.keep = true) (h : Reachable pol s) : Fresh s := by
  induction h with
  | init => refine ⟨?_, ?_, ?_, ?_, ?_, ?_, ?_, ?_⟩ <;> simp [State.init]
  | step hr st ih => exact fresh_step h1 h2 h3 (rows hr) (why hr) ih st

/-! ## Theorems -/

/-- **C128** The events of a transaction are stored only if `Commit` was called with its context (and then by that call) or the checker was asked about it and answered commit (and then by that check-back). -/
theorem C128_only_if_decided (h : Reachable pol s) (t : Nat) : (.stored t .client ∈ s.log → .commitCalled t ∈ s.log) ∧ (.stored t .checkback ∈ s.log → .asked t .commit ∈ s.log) :=
  ⟨(why h).byClient t, (why h).byCheck t⟩

/-- **C128** After `Rollback` returned nil no instance asks the checker about the transaction any more and no check-back stores its events, not even one that was already running. -/
theorem C128_rolled_back (h : Reachable pol s) {l1 l2 : List Note} {t : Nat} (hl : s.log = l1 ++ .rolledBack t :: l2) : (∀ a, .asked t a ∉ l1) ∧ .stored t .checkback ∉ l1 := by
  have hp := (ends_all h).order
  rw [hl] at hp
  have := (List.pairwise_append.1 hp).2.2
  exact ⟨fun a ha => (this _ ha _ List.mem_cons_self t (.inl rfl)).1 a rfl, fun ha => (this _ ha _ List.mem_cons_self t (.inl rfl)).2 rfl⟩

/-- **C128** So they are never stored any more, unless a client calls `Commit`. -/
theorem C128_rolled_back_for_good (h : Reachable pol s) {l1 l2 : List Note} {t : Nat} (hl : s.log = l1 ++ .rolledBack t :: l2) (hc : .commitCalled t ∉ s.log) (w : Who) : .stored t w ∉ l1 := by
  cases w with
  | checkback => exact (C128_rolled_back h hl).2
  | client =>
    intro hm
    exact hc ((why h).byClient t (by rw [hl]; exact List.mem_append_left _ hm))

/-- **C128** Once a check-back that deleted the row of a transaction has committed, no instance asks the checker about the transaction any more and no check-back stores its events again. -/
theorem C128_settled (h : Reachable pol s) {l1 l2 : List Note} {t : Nat} (hl : s.log = l1 ++ .settled t :: l2) : (∀ a, .asked t a ∉ l1) ∧ .stored t .checkback ∉ l1 := by
  have hp := (ends_all h).order
  rw [hl] at hp
  have := (List.pairwise_append.1 hp).2.2
  exact ⟨fun a ha => (this _ ha _ List.mem_cons_self t (.inr rfl)).1 a rfl, fun ha => (this _ ha _ List.mem_cons_self t (.inr rfl)).2 rfl⟩

/-- **C128** When a client's `Commit` returns nil, the events of the transaction have been stored. -/
theorem C128_commit_done (h : Reachable pol s) {l1 l2 : List Note} {t : Nat} (hl : s.log = l1 ++ .commitDone t :: l2) : ∃ w, .stored t w ∈ l2 := (ends_all h).done l1 t l2 hl

theorem storedTimes_cons_other {n : Note} {t : Nat} {l : List Note} (h : ∀ w, n ≠ .stored t w) : storedTimes t (n :: l) = storedTimes t l := by
  have h1 := h .client
  have h2 := h .checkback
  simp [storedTimes, h1, h2]

theorem storedTimes_zero {t : Nat} {l : List Note} (h : ∀ w, .stored t w ∉ l) : storedTimes t l = 0 := by
  refine List.countP_eq_zero.2 fun n hn => ?_
  simp only [Bool.or_eq_true, beq_iff_eq]
  rintro (rfl | rfl)
  · exact h _ hn
  · exact h _ hn

theorem storedTimes_append (t : Nat) (l l' : List Note) : storedTimes t (l ++ l') = storedTimes t l + storedTimes t l' := List.countP_append

theorem storedTimes_settled (t : Nat) (d : List Nat) : storedTimes t (d.map .settled) = 0 := storedTimes_zero (by simp)

theorem storedTimes_ins {t : Nat} {l : List Nat} (h : l.Nodup) : storedTimes t (l.map fun u => .stored u .checkback) ≤ if t ∈ l then 1 else 0 := by
  have : storedTimes t (l.map fun u => .stored u .checkback) = l.count t := by
    rw [storedTimes, List.countP_map, List.count]
    refine List.countP_congr fun u _ => ?_
    simp
  rw [this, List.Nodup.count h]
  split <;> omega

theorem once_step (h1 : pol.once = true) (h2 : pol.prompt = true) (h3 : pol.keep = true) (h : Reachable pol s) (ih : ∀ t, storedTimes t s.log ≤ 1) (st : Step pol s s') (t : Nat) :
    storedTimes t s'.log ≤ 1 := by
  have hf := fresh_all h1 h2 h3 h
  have hr := rows h
  have hw := why h
  have ih' := ih t
  cases st with
  | insert k tx hk hp =>
    by_cases ht : t = tx.id
    · subst ht
      have : storedTimes tx.id s.log = 0 := by
        refine storedTimes_zero fun w hm => ?_
        cases w with
        | client => exact hf.early k _ hk (.inr rfl) hm
        | checkback =>
          have := hf.late _ hm tx (hw.call k _ hk).2 rfl
          have := hp h2
          omega
      simp only [storedTimes, List.countP_cons] at this ⊢
      rw [this]; simp
    · show storedTimes t (_ :: s.log) ≤ 1
      rw [storedTimes_cons_other]
      · exact ih'
      · intro w hw'; simp only [Note.stored.injEq] at hw'; exact ht hw'.1.symm
  | chkEnd i c hi hp =>
    show storedTimes t (_ ++ (_ ++ s.log)) ≤ 1
    rw [storedTimes_append, storedTimes_append, storedTimes_settled]
    have hn := storedTimes_ins (t := t) (hf.nodup i c hi)
    split at hn
    · rename_i hm
      have : storedTimes t s.log = 0 := by
        refine storedTimes_zero fun w hs => ?_
        obtain ⟨x, hx, hxi, -⟩ := hr.held i c hi t (hr.ins i c hi t hm)
        exact hf.ins i c hi t hm (hxi ▸ hf.open' x hx w (hxi.symm ▸ hs))
      omega
    · omega
  | tick | recs | lookNone | clientDrop | select | chkFound | chkNone | chkInsert | chkRecs | chkDelete | chkError | chkDie | clean => exact ih'
  | _ =>
    show storedTimes t (_ :: s.log) ≤ 1
    rw [storedTimes_cons_other (by simp)]
    exact ih'

/-- **C128** If clients call `Commit` at most once with the context of a transaction and insert its events before it is due, and the events of a transaction are not cleaned as long as its row is there, then the events of every
transaction are stored at most once, in every interleaving of any number of clients and instances, with errors and crashes everywhere and under both isolation levels. -/
theorem C128_once_partial (h1 : pol.once = true) (h2 : pol.prompt = true) (h3 : pol.keep = true) (h : Reachable pol s) (t : Nat) : storedTimes t s.log ≤ 1 := by
  induction h generalizing t with
  | init => simp [State.init, storedTimes]
  | step hr st ih => exact once_step h1 h2 h3 hr ih st t

/-! ## Which assumptions are needed -/

/-- the first transaction of service 7, due at 60 -/
def tx1 : Row := ⟨1, 7, 60⟩

/-- `DispatchBegin` at time 0 -/
theorem begun1 (pol : Pol) : Reachable pol ⟨0, [tx1], 2, [], fun _ => none, fun _ => none, [.begun tx1]⟩ := .step .init (.begin _ 7 0 60 (Nat.le_refl _))

/-- A whole check-back by instance `i` of service 7 of the only row `tx1`, at a time when it is overdue and its events are not there: it stores them and deletes the row. -/
theorem checkback1 {pol : Pol} {s : State} (h : Reachable pol s) (i : Nat) (h1 : s.txs = [tx1]) (h2 : 60 < s.now) (h3 : ∀ i, s.chk i = none) (h4 : s.present = []) :
    ∃ s', Reachable pol s' ∧ s'.log = .settled 1 :: .stored 1 .checkback :: .asked 1 .commit :: s.log ∧ s'.cl = s.cl ∧ s'.now = s.now ∧ s'.present = [1] ∧ s'.txs = [] := by
  obtain ⟨now, txs, nextTx, present, cl, chk, log⟩ := s
  simp only at h1 h2 h3 h4
  subst h1; subst h4
  have hf : ([tx1].filter fun r => decide (r.svc = 7 ∧ r.due < now)) = [tx1] := by simp [tx1, h2]
  have a := h.step (.select _ i 7 now (Nat.le_refl _) (h3 i) (by rintro r - - - ⟨j, c, hc, -⟩; simp only at hc; rw [h3 j] at hc; cases hc))
  simp only [hf] at a
  have b := a.step (.askCommit _ i _ tx1 [] (by simp only [put, if_true]; rfl) rfl rfl)
  have c := b.step (.chkNone _ i _ tx1 [] (by simp only [put, if_true]; rfl) rfl rfl (by cases hp : pol.snapshot <;> simp [sees, hp, tx1]))
  have d := c.step (.chkInsert _ i _ tx1 [] (by simp only [put, if_true]; rfl) rfl rfl)
  have e := d.step (.chkRecs _ i _ tx1 [] (by simp only [put, if_true]; rfl) rfl rfl)
  have f := e.step (.chkDelete _ i _ tx1 [] (by simp only [put, if_true]; rfl) rfl rfl)
  have g := f.step (.chkEnd _ i _ (by simp only [put, if_true]; rfl) rfl)
  exact ⟨_, g, rfl, rfl, rfl, rfl, rfl⟩

/-- **C128** is false without `once`: two overlapping calls of `Commit` with the same context, both in time, store the events twice. -/
theorem C128_two_commits (b : Bool) : ∃ s, Reachable ⟨false, true, true, b⟩ s ∧ storedTimes 1 s.log = 2 := by
  have a := begun1 ⟨false, true, true, b⟩
  have a1 := a.step (.commitCall _ 0 tx1 (by decide) rfl (by intro h; cases h))
  have a2 := a1.step (.commitCall _ 1 tx1 (by decide) rfl (by intro h; cases h))
  have a3 := a2.step (.lookNone _ 0 tx1 rfl (by decide))
  have a4 := a3.step (.lookNone _ 1 tx1 rfl (by decide))
  have a5 := a4.step (.insert _ 0 tx1 rfl (by intro _; exact Nat.zero_le _))
  have a6 := a5.step (.insert _ 1 tx1 rfl (by intro _; exact Nat.zero_le _))
  exact ⟨_, a6, by decide⟩

/-- **C128** is false without `prompt`: a `Commit` that looked up in time and inserts after a check-back has stored the events stores them again. -/
theorem C128_late_commit (b : Bool) : ∃ s, Reachable ⟨true, false, true, b⟩ s ∧ storedTimes 1 s.log = 2 := by
  have a := begun1 ⟨true, false, true, b⟩
  have a1 := a.step (.commitCall _ 0 tx1 (by decide) rfl (by intro _; decide))
  have a2 := a1.step (.lookNone _ 0 tx1 rfl (by decide))
  have a3 := a2.step (.tick _ 70)
  obtain ⟨s, hs, hl, hc, hn, -, -⟩ := checkback1 a3 0 rfl (by decide) (fun _ => rfl) rfl
  have a4 := hs.step (.insert _ 0 tx1 (by rw [hc]; rfl) (by intro h; cases h))
  refine ⟨_, a4, ?_⟩
  show storedTimes 1 (_ :: s.log) = 2
  rw [hl]; decide

/-- **C128** is false without `keep`: a client dies after the insert and before the row is deleted, the events are handled and cleaned, and the check-back stores them again. -/
theorem C128_cleaned_early (b : Bool) : ∃ s, Reachable ⟨true, true, false, b⟩ s ∧ storedTimes 1 s.log = 2 := by
  have a := begun1 ⟨true, true, false, b⟩
  have a1 := a.step (.commitCall _ 0 tx1 (by decide) rfl (by intro _; decide))
  have a2 := a1.step (.lookNone _ 0 tx1 rfl (by decide))
  have a3 := a2.step (.insert _ 0 tx1 rfl (by intro _; exact Nat.zero_le _))
  have a4 := a3.step (.clientDrop _ 0)
  have a5 := a4.step (.clean _ 1 (by intro h; cases h))
  have a6 := a5.step (.tick _ 70)
  obtain ⟨s, hs, hl, -, -, -, -⟩ := checkback1 a6 0 rfl (by decide) (fun _ => rfl) (by decide)
  exact ⟨s, hs, by rw [hl]; decide⟩

/-- **C128** `Rollback` does not prevent a later `Commit` with the same context, which stores the events: the exception in `C128_rolled_back_for_good` is needed. -/
theorem C128_commit_after_rollback (pol : Pol) : ∃ s, Reachable pol s ∧ s.log = .stored 1 .client :: .commitCalled 1 :: .rolledBack 1 :: [.begun tx1] := by
  have a := begun1 pol
  have a1 := a.step (.rollback _ tx1 (by decide) (by rintro ⟨i, c, hc, -⟩; cases hc))
  have a2 := a1.step (.commitCall _ 0 tx1 (by decide) rfl (by intro _; decide))
  have a3 := a2.step (.lookNone _ 0 tx1 rfl (by decide))
  have a4 := a3.step (.insert _ 0 tx1 rfl (by intro _; exact Nat.zero_le _))
  exact ⟨_, a4, rfl⟩

/-- **C128** A `Commit` that returned nil may be followed by a question to the checker: it deletes the row only if it stored the events itself (`eventbus.go:328-331`). -/
theorem C128_done_then_asked : ∃ s, Reachable ⟨false, true, true, true⟩ s ∧ ∃ l1 l2, s.log = l1 ++ .commitDone 1 :: l2 ∧ .asked 1 .commit ∈ l1 := by
  have a := begun1 ⟨false, true, true, true⟩
  have a1 := a.step (.commitCall _ 0 tx1 (by decide) rfl (by intro h; cases h))
  have a2 := a1.step (.lookNone _ 0 tx1 rfl (by decide))
  have a3 := a2.step (.insert _ 0 tx1 rfl (by intro _; exact Nat.zero_le _))
  have a4 := a3.step (.clientDrop _ 0)
  have a5 := a4.step (.commitCall _ 0 tx1 (by decide) rfl (by intro h; cases h))
  have a6 := a5.step (.lookFound _ 0 tx1 rfl (by decide))
  have a7 := a6.step (.tick _ 70)
  have a8 := a7.step (.select _ 0 7 70 (Nat.le_refl _) rfl (by rintro r - - - ⟨j, c, hc, -⟩; cases hc))
  have a9 := a8.step (.askCommit _ 0 _ tx1 [] rfl rfl rfl)
  exact ⟨_, a9, [.asked 1 .commit], _, rfl, List.mem_singleton.2 rfl⟩

/-- non-vacuity of `C128_once_partial`, `C128_commit_done`: under all assumptions a client's `Commit` stores the events, deletes the row and returns nil -/
example : ∃ s, Reachable ⟨true, true, true, true⟩ s ∧ s.log = .commitDone 1 :: .stored 1 .client :: .commitCalled 1 :: [.begun tx1] ∧ storedTimes 1 s.log = 1 := by
  have a := begun1 ⟨true, true, true, true⟩
  have a1 := a.step (.commitCall _ 0 tx1 (by decide) rfl (by intro _; decide))
  have a2 := a1.step (.lookNone _ 0 tx1 rfl (by decide))
  have a3 := a2.step (.insert _ 0 tx1 rfl (by intro _; exact Nat.zero_le _))
  have a4 := a3.step (.recs _ 0 tx1 rfl)
  have a5 := a4.step (.delete _ 0 tx1 rfl (by rintro ⟨i, c, hc, -⟩; cases hc))
  exact ⟨_, a5, rfl, by decide⟩

/-- non-vacuity of `C128_settled` and `C128_once_partial`: under all assumptions a check-back stores the events of a client that died -/
example : ∃ s, Reachable ⟨true, true, true, true⟩ s ∧ s.log = .settled 1 :: .stored 1 .checkback :: .asked 1 .commit :: [.begun tx1] ∧ storedTimes 1 s.log = 1 := by
  obtain ⟨s, hs, hl, -, -, -, -⟩ := checkback1 ((begun1 ⟨true, true, true, true⟩).step (.tick _ 70)) 0 rfl (by decide) (fun _ => rfl) rfl
  exact ⟨s, hs, hl, by rw [hl]; decide⟩

/-- non-vacuity of `C128_rolled_back`: the client's `Rollback` after a check-back that died -/
example : ∃ s, Reachable ⟨true, true, true, true⟩ s ∧ s.log = .rolledBack 1 :: .asked 1 .commit :: [.begun tx1] := by
  have a := (begun1 ⟨true, true, true, true⟩).step (.tick _ 70)
  have a8 := a.step (.select _ 0 7 70 (Nat.le_refl _) rfl (by rintro r - - - ⟨j, c, hc, -⟩; cases hc))
  have a9 := a8.step (.askCommit _ 0 _ tx1 [] rfl rfl rfl)
  have b := a9.step (.chkDie _ 0)
  have b1 := b.step (.rollback _ tx1 (by decide) (by
    rintro ⟨i, c, hc, -⟩
    by_cases hi : i = 0
    · subst hi; cases hc
    · simp [put, hi] at hc))
  exact ⟨_, b1, rfl⟩

end Ddd.TxRace
