import Verif.Proofs.Command
/-! All ways a command can run: transaction, locks, PostSave hooks. -/
set_option linter.unusedVariables false
set_option linter.unusedSimpArgs false
namespace Ddd

variable (env : Env) (opts : Opts)

/-- the end of a transaction: what `do` returned, the calls made, what the command returns. `pend`: a bus transaction is open. -/
inductive TxTail (env : Env) (pend : Bool) : Option Result → Trace → Option Result → Prop
  | panicked (st : Stat) : TxTail env pend none [.rollback st] none
  | undone (r : Result) (st : Stat) : ¬ r.clean → st ≠ .panic → pend = false → TxTail env pend (some r) [.rollback st] (some r)
  | undonePanic (r : Result) (st : Stat) : ¬ r.clean → TxTail env pend (some r) [.rollback .panic, .rollback st] none
  | undoneBus (r : Result) (st b : Stat) : ¬ r.clean → st ≠ .panic → b ≠ .panic → pend = true →
      TxTail env pend (some r) [.rollback st, .busRollback b] (some r)
  | undoneBusPanic (r : Result) (st c : Stat) : ¬ r.clean → st ≠ .panic → pend = true →
      TxTail env pend (some r) [.rollback st, .busRollback .panic, .rollback c] none
  | commitPanic (r : Result) (c : Stat) : r.clean → TxTail env pend (some r) [.commit .panic, .rollback c] none
  | commitErr (r : Result) (e : Err) (h : Trace) : r.clean → env.commit h = .err e → TxTail env pend (some r) [.commit .err] (some { r with error := some e })
  | committed (r : Result) : r.clean → pend = false → TxTail env pend (some r) [.commit .ok] (some r)
  | committedBus (r : Result) (b : Stat) : r.clean → b ≠ .panic → pend = true →
      TxTail env pend (some r) [.commit .ok, .busCommit b] (some r)
  | committedBusPanic (r : Result) (c : Stat) : r.clean → pend = true →
      TxTail env pend (some r) [.commit .ok, .busCommit .panic, .rollback c] none

theorem not_clean_iff (r : Result) : (r.error.isSome || r.brk) = true ↔ ¬ r.clean := by
  unfold Result.clean
  cases r.error <;> cases r.brk <;> simp

/-- `runWithTransaction` around `do`, or `do` alone. -/
inductive BodyRun (main : Prog) (s : St) : Outcome → Prop
  | plain : opts.withTransaction = false → BodyRun main s (doStage env opts main s)
  | noBegin (st : Stat) (o : Outcome) : opts.withTransaction = true → st ≠ .ok → o.2 = s.log (.begin st) →
      (∀ r, o.1 = some r → r.error.isSome ∧ r.brk = false) → (∀ r, o.1 = some r → r.actions = [] ∧ r.output = 0) → BodyRun main s o
  | tx (o : Outcome) (tail : Trace) : opts.withTransaction = true →
      TxTail env (busPending opts (doStage env opts main (s.log (.begin .ok))).2) (doStage env opts main (s.log (.begin .ok))).1 tail o.1 →
      o.2.trace = (doStage env opts main (s.log (.begin .ok))).2.trace ++ tail → BodyRun main s o

theorem runWithTransaction_run (main : Prog) (s : St) (hw : opts.withTransaction = true) :
    BodyRun env opts main s (runWithTransaction env opts (doStage env opts main) s) := by
  unfold runWithTransaction callOut
  cases hb : env.begin_ s.trace with
  | panic => exact .noBegin .panic _ hw (by simp) rfl (by simp) (by simp)
  | err e => exact .noBegin .err _ hw (by simp) rfl (by simp [resultErrors, resultError]) (by simp [resultErrors, resultError])
  | ok u =>
    dsimp only [Res.stat]
    generalize hx : doStage env opts main (s.log (.begin .ok)) = x
    obtain ⟨o1, s2⟩ := x
    cases o1 with
    | none =>
      dsimp only
      refine .tx _ [.rollback (env.rollback s2.trace).stat] hw ?_ ?_
      · rw [hx]; exact .panicked _
      · rw [hx]; rfl
    | some r =>
      dsimp only
      split
      · next hc =>
        rw [not_clean_iff] at hc
        cases hr : env.rollback s2.trace with
        | panic =>
          dsimp only
          refine .tx _ [.rollback .panic, .rollback (env.rollback (s2.log (.rollback .panic)).trace).stat] hw ?_ ?_
          · rw [hx]; exact .undonePanic _ _ hc
          · rw [hx]; simp only [recoverRollback, callOut, St.log, Res.stat, List.append_assoc]; rfl
        | ok u =>
          dsimp only
          cases hp : busPending opts (s2.log (.rollback .ok)) with
          | false =>
            rw [if_neg (by simp)]
            exact .tx _ [.rollback .ok] hw (by rw [hx]; exact .undone _ _ hc (by simp) hp) (by rw [hx]; rfl)
          | true =>
            rw [if_pos rfl]
            cases hbr : env.busRollback (s2.log (.rollback .ok)).trace with
            | panic =>
              dsimp only
              refine .tx _ [.rollback .ok, .busRollback .panic, .rollback (env.rollback ((s2.log (.rollback .ok)).log (.busRollback .panic)).trace).stat] hw ?_ ?_
              · rw [hx]; exact .undoneBusPanic _ _ _ hc (by simp) hp
              · rw [hx]; simp only [recoverRollback, callOut, St.log, Res.stat, List.append_assoc]; rfl
            | ok u =>
              exact .tx _ [.rollback .ok, .busRollback .ok] hw
                (by rw [hx]; exact .undoneBus _ _ _ hc (by simp) (by simp) hp) (by rw [hx]; simp [St.log, Res.stat])
            | err u =>
              exact .tx _ [.rollback .ok, .busRollback .err] hw
                (by rw [hx]; exact .undoneBus _ _ _ hc (by simp) (by simp) hp) (by rw [hx]; simp [St.log, Res.stat])
        | err u =>
          dsimp only
          cases hp : busPending opts (s2.log (.rollback .err)) with
          | false =>
            rw [if_neg (by simp)]
            exact .tx _ [.rollback .err] hw (by rw [hx]; exact .undone _ _ hc (by simp) hp) (by rw [hx]; rfl)
          | true =>
            rw [if_pos rfl]
            cases hbr : env.busRollback (s2.log (.rollback .err)).trace with
            | panic =>
              dsimp only
              refine .tx _ [.rollback .err, .busRollback .panic, .rollback (env.rollback ((s2.log (.rollback .err)).log (.busRollback .panic)).trace).stat] hw ?_ ?_
              · rw [hx]; exact .undoneBusPanic _ _ _ hc (by simp) hp
              · rw [hx]; simp only [recoverRollback, callOut, St.log, Res.stat, List.append_assoc]; rfl
            | ok u =>
              exact .tx _ [.rollback .err, .busRollback .ok] hw
                (by rw [hx]; exact .undoneBus _ _ _ hc (by simp) (by simp) hp) (by rw [hx]; simp [St.log, Res.stat])
            | err u =>
              exact .tx _ [.rollback .err, .busRollback .err] hw
                (by rw [hx]; exact .undoneBus _ _ _ hc (by simp) (by simp) hp) (by rw [hx]; simp [St.log, Res.stat])
      · next hc =>
        replace hc : r.clean := by
          by_contra h; exact hc ((not_clean_iff r).2 h)
        cases hr : env.commit s2.trace with
        | panic =>
          dsimp only
          refine .tx _ [.commit .panic, .rollback (env.rollback (s2.log (.commit .panic)).trace).stat] hw ?_ ?_
          · rw [hx]; exact .commitPanic _ _ hc
          · rw [hx]; simp only [recoverRollback, callOut, St.log, Res.stat, List.append_assoc]; rfl
        | err e => exact .tx _ [.commit .err] hw (by rw [hx]; exact .commitErr _ _ _ hc hr) (by rw [hx]; rfl)
        | ok u =>
          dsimp only
          cases hp : busPending opts (s2.log (.commit .ok)) with
          | false =>
            rw [if_neg (by simp)]
            exact .tx _ [.commit .ok] hw (by rw [hx]; exact .committed _ hc hp) (by rw [hx]; rfl)
          | true =>
            rw [if_pos rfl]
            cases hbr : env.busCommit (s2.log (.commit .ok)).trace with
            | panic =>
              dsimp only
              refine .tx _ [.commit .ok, .busCommit .panic, .rollback (env.rollback ((s2.log (.commit .ok)).log (.busCommit .panic)).trace).stat] hw ?_ ?_
              · rw [hx]; exact .committedBusPanic _ _ hc hp
              · rw [hx]; simp only [recoverRollback, callOut, St.log, Res.stat, List.append_assoc]; rfl
            | ok u =>
              exact .tx _ [.commit .ok, .busCommit .ok] hw
                (by rw [hx]; exact .committedBus _ _ hc (by simp) hp) (by rw [hx]; simp [St.log, Res.stat])
            | err u =>
              exact .tx _ [.commit .ok, .busCommit .err] hw
                (by rw [hx]; exact .committedBus _ _ hc (by simp) hp) (by rw [hx]; simp [St.log, Res.stat])

/-- the deferred unlock loop: a panic ends it early. -/
inductive Released : List Nat → Bool → Trace → Prop
  | nil : Released [] true []
  | cons (k : Nat) (ks : List Nat) (st : Stat) (b : Bool) (t : Trace) : st ≠ .panic → Released ks b t →
      Released (k :: ks) b (.unlock k st :: t)
  | panic (k : Nat) (ks : List Nat) : Released (k :: ks) false [.unlock k .panic]

theorem releaseAll_run (ks : List Nat) (s : St) : ∃ t, (releaseAll env ks s).2 = { s with trace := s.trace ++ t } ∧
    Released ks (releaseAll env ks s).1 t := by
  induction ks generalizing s with
  | nil => exact ⟨[], by simp [releaseAll], .nil⟩
  | cons k ks ih =>
    unfold releaseAll callOut
    dsimp only
    cases h : env.unlock s.trace k with
    | panic => exact ⟨[.unlock k .panic], rfl, .panic k ks⟩
    | ok u =>
      obtain ⟨t, e, r⟩ := ih (s.log (.unlock k .ok))
      exact ⟨.unlock k .ok :: t, by dsimp only [Res.stat]; rw [e]; simp [St.log], .cons _ _ _ _ _ (by simp) r⟩
    | err u =>
      obtain ⟨t, e, r⟩ := ih (s.log (.unlock k .err))
      exact ⟨.unlock k .err :: t, by dsimp only [Res.stat]; rw [e]; simp [St.log], .cons _ _ _ _ _ (by simp) r⟩

/-- the acquisition loop. -/
inductive Acquired (ks : List Nat) : LockRes → List Nat → Trace → Prop
  | all : Acquired ks .all ks (ks.map fun k => .lock k .ok)
  | failed (pre post : List Nat) (k : Nat) (e : Err) (h : Trace) : ks = pre ++ k :: post → env.lock h k = .err e →
      Acquired ks (.failed (.wrap e)) pre ((pre.map fun k => .lock k .ok) ++ [.lock k .err])
  | panic (pre post : List Nat) (k : Nat) : ks = pre ++ k :: post →
      Acquired ks .panic pre ((pre.map fun k => .lock k .ok) ++ [.lock k .panic])

theorem acquire_run (ks : List Nat) (got : List Nat) (s : St) : ∃ got' t,
    acquire env ks got s = ((acquire env ks got s).1, got ++ got', { s with trace := s.trace ++ t }) ∧
    Acquired env ks (acquire env ks got s).1 got' t := by
  induction ks generalizing got s with
  | nil => exact ⟨[], [], by simp [acquire], .all⟩
  | cons k ks ih =>
    unfold acquire callOut
    dsimp only
    cases h : env.lock s.trace k with
    | panic => exact ⟨[], [.lock k .panic], by simp [St.log, Res.stat], .panic [] ks k rfl⟩
    | err e => exact ⟨[], [.lock k .err], by simp [St.log, Res.stat], .failed [] ks k e _ rfl h⟩
    | ok u =>
      dsimp only [Res.stat]
      obtain ⟨g, t, e, r⟩ := ih (got ++ [k]) (s.log (.lock k .ok))
      refine ⟨k :: g, .lock k .ok :: t, ?_, ?_⟩
      · rw [e]; simp [St.log]
      · generalize (acquire env ks (got ++ [k]) (s.log (.lock k .ok))).1 = x at r
        cases r with
        | all => exact .all
        | failed pre post k' e' h' hk he => exact .failed (k :: g) post k' e' h' (by simp [hk]) he
        | panic pre post k' hk => exact .panic (k :: g) post k' (by simp [hk])

theorem hasAdjacentDup_sorted {l : List Nat} (h : l.Pairwise (· ≤ ·)) : hasAdjacentDup l = true ↔ ¬ l.Nodup := by
  induction l with
  | nil => simp [hasAdjacentDup]
  | cons a l ih =>
    cases l with
    | nil => simp [hasAdjacentDup]
    | cons b l =>
      unfold hasAdjacentDup
      rw [List.pairwise_cons] at h
      have ih := ih h.2
      simp only [Bool.or_eq_true, decide_eq_true_eq, ih]
      constructor
      · rintro (rfl | h') hn
        · exact (List.nodup_cons.1 hn).1 (by simp)
        · exact h' (List.nodup_cons.1 hn).2
      · intro hn
        by_cases h1 : a = b
        · exact .inl h1
        · right
          intro hnd
          apply hn
          refine List.nodup_cons.2 ⟨?_, hnd⟩
          intro hm
          have h2 := h.2
          rw [List.pairwise_cons] at h2
          rcases List.mem_cons.1 hm with h3 | h3
          · exact h1 h3
          · have e1 := h2.1 a h3
            have e2 := h.1 b (by simp)
            exact h1 (le_antisymm e2 e1)

/-- everything of `Save` before the PostSave hooks. -/
inductive CoreRun (keys : List Nat) (main : Prog) (s : St) : Outcome → Prop
  | free (o : Outcome) : keys = [] → BodyRun env opts main s o → CoreRun keys main s o
  | dup : ¬ keys.Nodup → CoreRun keys main s (some (resultErrors errLockRepeated), s)
  | refused (pre post : List Nat) (k : Nat) (e : Err) (h t : Trace) (b : Bool) (o : Outcome) : keys.Nodup →
      keys.insertionSort (· ≤ ·) = pre ++ k :: post → env.lock h k = .err e → Released pre b t →
      o.2 = { s with trace := s.trace ++ ((pre.map fun k => .lock k .ok) ++ .lock k .err :: t) } →
      o.1 = (if b then some (resultErrors (.wrap e)) else none) → CoreRun keys main s o
  | lockPanic (pre post : List Nat) (k : Nat) (o : Outcome) : keys.Nodup →
      keys.insertionSort (· ≤ ·) = pre ++ k :: post →
      o = (none, { s with trace := s.trace ++ ((pre.map fun k => .lock k .ok) ++ [.lock k .panic]) }) → CoreRun keys main s o
  | held (o' : Outcome) (t : Trace) (b : Bool) (o : Outcome) : keys.Nodup → keys ≠ [] →
      BodyRun env opts main { s with trace := s.trace ++ (keys.insertionSort (· ≤ ·)).map fun k => .lock k .ok } o' →
      Released (keys.insertionSort (· ≤ ·)) b t → o.2 = { o'.2 with trace := o'.2.trace ++ t } →
      o.1 = (if b then o'.1 else none) → CoreRun keys main s o

theorem saveCore_run (keys : List Nat) (main : Prog) (s : St) : CoreRun env opts keys main s (saveCore env opts keys main s) := by
  unfold saveCore
  have body : ∀ s, BodyRun env opts main s ((if opts.withTransaction then runWithTransaction env opts (doStage env opts main)
      else doStage env opts main) s) := by
    intro s
    split
    · next h => exact runWithTransaction_run env opts main s h
    · next h => exact .plain (by simpa using h)
  split
  · next h => exact .free _ (by simpa using h) (body s)
  · next hne =>
    replace hne : keys ≠ [] := by simpa using hne
    unfold runOnLock
    dsimp only
    have hs : (keys.insertionSort (· ≤ ·)).Pairwise (· ≤ ·) := List.pairwise_insertionSort _ _
    have hp : (keys.insertionSort (· ≤ ·)).Perm keys := List.perm_insertionSort _ _
    split
    · next hd => exact .dup (by rw [hasAdjacentDup_sorted hs, hp.nodup_iff] at hd; exact hd)
    · next hd =>
      have hnd : keys.Nodup := by
        by_contra h; exact hd ((hasAdjacentDup_sorted hs).2 (by rwa [hp.nodup_iff]))
      obtain ⟨got, t, e, r⟩ := acquire_run env (keys.insertionSort (· ≤ ·)) [] s
      rw [e]
      generalize hgen : (acquire env (keys.insertionSort (· ≤ ·)) [] s).1 = x at r
      cases r with
      | all =>
        dsimp only
        generalize hf : (if opts.withTransaction then runWithTransaction env opts (doStage env opts main)
          else doStage env opts main) _ = o'
        have hb := body { s with trace := s.trace ++ (keys.insertionSort (· ≤ ·)).map fun k => .lock k .ok }
        rw [hf] at hb
        obtain ⟨t', e', r'⟩ := releaseAll_run env (keys.insertionSort (· ≤ ·)) o'.2
        refine .held o' t' (releaseAll env (keys.insertionSort (· ≤ ·)) o'.2).1 _ hnd hne hb r' ?_ ?_
        · cases hq : releaseAll env (keys.insertionSort (· ≤ ·)) o'.2 with
          | mk b s' => rw [hq] at e'; cases b <;> simpa [hq] using e'
        · cases hq : releaseAll env (keys.insertionSort (· ≤ ·)) o'.2 with
          | mk b s' => cases b <;> simp [hq]
      | failed pre post k e0 h hk he =>
        dsimp only [List.nil_append]
        obtain ⟨t', e', r'⟩ := releaseAll_run env got { s with trace := s.trace ++ ((got.map fun k => .lock k .ok) ++ [.lock k .err]) }
        refine .refused got post k e0 h t' _ _ hnd hk he r' ?_ ?_
        · cases hq : releaseAll env got { s with trace := s.trace ++ ((got.map fun k => .lock k .ok) ++ [.lock k .err]) } with
          | mk b s' => rw [hq] at e'; cases b <;> simpa using e'
        · cases hq : releaseAll env got { s with trace := s.trace ++ ((got.map fun k => .lock k .ok) ++ [.lock k .err]) } with
          | mk b s' => cases b <;> simp
      | panic pre post k hk => exact .lockPanic got post k _ hnd hk rfl

/-- the PostSave loop: a panic ends it early. -/
inductive Posted : List Nat → Bool → Trace → Prop
  | nil : Posted [] true []
  | cons (k : Nat) (ks : List Nat) (st : Stat) (b : Bool) (t : Trace) : st ≠ .panic → Posted ks b t →
      Posted (k :: ks) b (.postSave k st :: t)
  | panic (k : Nat) (ks : List Nat) : Posted (k :: ks) false [.postSave k .panic]

theorem postSaves_run (ks : List Nat) (s : St) : ∃ t, (postSaves env ks s).2 = { s with trace := s.trace ++ t } ∧
    Posted ks (postSaves env ks s).1 t := by
  induction ks generalizing s with
  | nil => exact ⟨[], by simp [postSaves], .nil⟩
  | cons k ks ih =>
    unfold postSaves callOut
    dsimp only
    cases h : env.postSave s.trace k with
    | panic => exact ⟨[.postSave k .panic], rfl, .panic k ks⟩
    | ok u =>
      obtain ⟨t, e, r⟩ := ih (s.log (.postSave k .ok))
      exact ⟨.postSave k .ok :: t, by dsimp only [Res.stat]; rw [e]; simp [St.log], .cons _ _ _ _ _ (by simp) r⟩
    | err u =>
      obtain ⟨t, e, r⟩ := ih (s.log (.postSave k .err))
      exact ⟨.postSave k .err :: t, by dsimp only [Res.stat]; rw [e]; simp [St.log], .cons _ _ _ _ _ (by simp) r⟩

/-- all of `Save`. -/
inductive SaveRun (keys : List Nat) (main : Prog) (s : St) : Outcome → Prop
  | panicked (o : Outcome) : CoreRun env opts keys main s o → o.1 = none → SaveRun keys main s o
  | failed (o : Outcome) (r : Result) : CoreRun env opts keys main s o → o.1 = some r → r.error.isSome → SaveRun keys main s o
  | posted (o' : Outcome) (r : Result) (t : Trace) (b : Bool) (o : Outcome) : CoreRun env opts keys main s o' → o'.1 = some r →
      r.error = none → Posted opts.hooks b t → o.2 = { o'.2 with trace := o'.2.trace ++ t } →
      o.1 = (if b then some r else none) → SaveRun keys main s o

theorem save_run (keys : List Nat) (main : Prog) (s : St) : SaveRun env opts keys main s (save env opts keys main s) := by
  unfold save
  have h := saveCore_run env opts keys main s
  generalize saveCore env opts keys main s = o at h
  obtain ⟨r, s1⟩ := o
  cases r with
  | none => exact .panicked _ h rfl
  | some r =>
    dsimp only
    cases he : r.error with
    | some e => exact .failed _ r h rfl (by simp [he])
    | none =>
      obtain ⟨t, e, p⟩ := postSaves_run env opts.hooks s1
      refine .posted _ r t _ _ h rfl he p ?_ ?_
      · cases hq : postSaves env opts.hooks s1 with
        | mk b s' => rw [hq] at e; cases b <;> simpa [hq] using e
      · cases hq : postSaves env opts.hooks s1 with
        | mk b s' => cases b <;> simp [hq]

end Ddd
