import Verif.Props.Atomic
/-!
# The durable effect of a whole command, and its result
-/
set_option linter.unusedVariables false
set_option linter.unusedSimpArgs false
namespace Ddd
open Spec

variable {env : Env} {opts : Opts} {c : Cmd} {h : Heap}
variable {D : Type} {apply : Action → D → D}

theorem dbRun_stays_closed {d d' : Db D} {t : Trace} (ho : d.openTx = none) (hx : ∀ x ∈ t, x ≠ .begin .ok) (hs : DbRun apply d t d') :
    d'.openTx = none := by
  induction hs with
  | nil => exact ho
  | @cons d d1 d2 x t h1 h2 ih =>
    refine ih ?_ fun y hy => hx y (List.mem_cons_of_mem _ hy)
    have hxb := hx x (by simp)
    cases x with
    | «begin» st => cases st <;> simp_all [DbStep]
    | exec a st =>
      simp only [DbStep, ho] at h1
      split at h1
      · rw [h1]
      · obtain ⟨w, rfl⟩ := h1; rfl
    | commit st => simp only [DbStep, ho] at h1; rw [h1, ho]
    | rollback st => simp only [DbStep, ho] at h1; rw [h1]
    | _ => simp only [DbStep] at h1; rw [h1, ho]

/-- every call has an effect. -/
theorem dbRun_total (apply : Action → D → D) (d : Db D) (t : Trace) : ∃ d', DbRun apply d t d' := by
  induction t generalizing d with
  | nil => exact ⟨d, .nil d⟩
  | cons x t ih =>
    have : ∃ d1, DbStep apply d x d1 := by
      cases x with
      | «begin» st => cases st <;> exact ⟨_, rfl⟩
      | exec a st =>
        simp only [DbStep]
        split
        · split
          · exact ⟨_, rfl⟩
          · exact ⟨_, d.durable, rfl⟩
        · split
          · exact ⟨_, rfl⟩
          · exact ⟨_, d.durable, rfl⟩
      | commit st =>
        simp only [DbStep]
        split
        · exact ⟨_, .inl rfl⟩
        · exact ⟨_, rfl⟩
      | _ => exact ⟨_, rfl⟩
    obtain ⟨d1, h1⟩ := this
    obtain ⟨d2, h2⟩ := ih d1
    exact ⟨d2, .cons h1 h2⟩

/-- commit and result of the end of a transaction. -/
theorem TxTail.outcome {pend : Bool} {o rt : Option Result} {t : Trace} (ht : TxTail env pend o t rt) :
    ((∃ st l, t = .rollback st :: l ∧ ∀ s', Call.commit s' ∉ l) ∧ (∀ r, rt = some r → r.error.isSome ∨ r.brk = true)) ∨
    ((∃ l, t = .commit .ok :: l ∧ ∀ s', Call.commit s' ∉ l) ∧ (∀ r, rt = some r → r.error = none ∧ r.brk = false)) ∨
    ((∃ st l, t = .commit st :: l ∧ st ≠ .ok ∧ ∀ s', Call.commit s' ∉ l) ∧ (∀ r, rt = some r → r.error.isSome ∧ r.brk = false)) := by
  have nc : ∀ r : Result, ¬ r.clean → r.error.isSome ∨ r.brk = true := by
    intro r hr
    unfold Result.clean at hr
    cases h1 : r.error <;> cases h2 : r.brk <;> simp_all
  cases ht with
  | panicked st => exact .inl ⟨⟨_, _, rfl, by simp⟩, by simp⟩
  | undone r st h1 => exact .inl ⟨⟨_, _, rfl, by simp⟩, by rintro r' ⟨⟩; exact nc r h1⟩
  | undonePanic r st h1 => exact .inl ⟨⟨_, _, rfl, by simp⟩, by simp⟩
  | undoneBus r st b h1 => exact .inl ⟨⟨_, _, rfl, by simp⟩, by rintro r' ⟨⟩; exact nc r h1⟩
  | undoneBusPanic r st b h1 => exact .inl ⟨⟨_, _, rfl, by simp⟩, by simp⟩
  | commitPanic r c h1 => exact .inr (.inr ⟨⟨_, _, rfl, by simp, by simp⟩, by simp⟩)
  | commitErr r e hh h1 h2 => exact .inr (.inr ⟨⟨_, _, rfl, by simp, by simp⟩, by rintro r' ⟨⟩; exact ⟨rfl, h1.2⟩⟩)
  | committed r h1 => exact .inr (.inl ⟨⟨_, rfl, by simp⟩, by rintro r' ⟨⟩; exact ⟨h1.1, h1.2⟩⟩)
  | committedBus r b h1 => exact .inr (.inl ⟨⟨_, rfl, by simp⟩, by rintro r' ⟨⟩; exact ⟨h1.1, h1.2⟩⟩)
  | committedBusPanic r c h1 => exact .inr (.inl ⟨⟨_, rfl, by simp⟩, by simp⟩)

theorem PostPhase.keeps {opts : Opts} {o r : Option Result} {t : Trace} (hp : PostPhase opts o t r) : ∀ x, r = some x → o = some x := by
  cases hp with
  | panicked => simp
  | failed r h => simp
  | posted r b t h1 h2 => cases b <;> simp

theorem init_fails_result (hi : c.InitFails) : (run env opts c h).2.trace = [] ∧ ∀ r, (run env opts c h).1 = some r → r.error.isSome ∨ r.brk = true := by
  unfold run
  rcases hi with ⟨e, hi⟩ | hi <;> rw [hi]
  · refine ⟨rfl, ?_⟩
    rintro r ⟨⟩
    unfold resultErrOrBreak resultError
    split <;> simp
  · exact ⟨rfl, by simp⟩

/-- The durable effect of a command and its result: (1) not committed: nothing; (2) committed: all writes; (3) `Commit` reported a failure: nothing or all writes.
No transaction stays open. -/
theorem run_effect (hw : opts.withTransaction = true) {S0 : D} {d : Db D} (hd : DbRun apply ⟨S0, none⟩ (run env opts c h).2.trace d) :
    d.openTx = none ∧
    (((∀ st, Call.commit st ∉ (run env opts c h).2.trace) ∧ d.durable = S0 ∧ (∀ r, (run env opts c h).1 = some r → r.error.isSome ∨ r.brk = true)) ∨
     (Call.commit .ok ∈ (run env opts c h).2.trace ∧ (∀ st, st ≠ .ok → Call.commit st ∉ (run env opts c h).2.trace) ∧
        Writes apply S0 (run env opts c h).2.trace d.durable ∧ (∀ r, (run env opts c h).1 = some r → r.error = none ∧ r.brk = false)) ∨
     ((∃ st, st ≠ .ok ∧ Call.commit st ∈ (run env opts c h).2.trace) ∧ Call.commit .ok ∉ (run env opts c h).2.trace ∧
        (d.durable = S0 ∨ Writes apply S0 (run env opts c h).2.trace d.durable) ∧ (∀ r, (run env opts c h).1 = some r → r.error.isSome ∧ r.brk = false))) := by
  have hC16 := C16_all_or_nothing apply hw S0 (List.prefix_refl _) hd
  rcases run_anatomy env opts c h with ⟨keys, hk, an⟩ | ⟨h1, h0⟩
  · generalize (run env opts c h).2.trace = T at an hd hC16 ⊢
    generalize (run env opts c h).1 = R at an ⊢
    cases an with
    | early _ _ he hr =>
      have hq : ∀ x ∈ T, Quiet x := by
        intro x hx
        rcases he.noBody x hx with ⟨_, _, rfl⟩ | ⟨_, _, rfl⟩ | ⟨_, _, rfl⟩ <;> trivial
      refine ⟨dbRun_stays_closed rfl ?_ hd, .inl ⟨fun st hm => hq _ hm, dbRun_quiet hq hd, fun r hr' => .inl (hr r hr').1⟩⟩
      intro x hx hb
      subst hb
      rcases he.noBody _ hx with ⟨_, _, h⟩ | ⟨_, _, h⟩ | ⟨st, hst, h⟩ <;> simp at h
      exact hst h.symm
    | plain _ _ _ _ _ _ hw' => exact absurd hw (by rw [show opts.withTransaction = false from hw']; simp)
    | tx body tail un posts rt _ b hn _ hbody ht hr hpp =>
      have hB := body_isBody _ _ hbody
      have hlocks : ∀ x ∈ ((keys.insertionSort (· ≤ ·)).map fun k => Call.lock k .ok), ∃ k, x = .lock k .ok := by
        intro x hx; obtain ⟨k, _, rfl⟩ := List.mem_map.1 hx; exact ⟨k, rfl⟩
      have hul : ∀ x ∈ un, ∃ k st, x = .unlock k st := hr.isUnlock
      have hpl : ∀ x ∈ posts, ∃ k st, x = .postSave k st := hpp.isPost
      have hres : ∀ r, R = some r → rt = some r := by
        intro r hr'
        have := hpp.keeps r hr'
        cases b <;> simp_all
      generalize ((keys.insertionSort (· ≤ ·)).map fun k => Call.lock k .ok) = L at *
      obtain ⟨d1, r1, r2⟩ := dbRun_append hd
      have e1 : d1 = ⟨S0, none⟩ := dbRun_locks hlocks r1
      subst e1
      cases r2 with
      | cons s1 r3 =>
        simp only [DbStep] at s1
        subst s1
        obtain ⟨d2, r4, r5⟩ := dbRun_append r3
        obtain ⟨w, rfl, hwr⟩ := dbRun_body hB r4
        have hnoC : ∀ st, Call.commit st ∉ L ++ (Call.begin .ok :: body) := by
          intro st hm
          rw [List.mem_append, List.mem_cons] at hm
          rcases hm with hm | hm | hm
          · obtain ⟨k, hk⟩ := hlocks _ hm; simp at hk
          · simp at hm
          · simpa [Call.IsBody] using hB _ hm
        have hnoC2 : ∀ st, Call.commit st ∉ un ++ posts := by
          intro st hm
          rw [List.mem_append] at hm
          rcases hm with hm | hm
          · obtain ⟨_, _, hk⟩ := hul _ hm; simp at hk
          · obtain ⟨_, _, hk⟩ := hpl _ hm; simp at hk
        have hmemC : ∀ st, Call.commit st ∈ L ++ (Call.begin .ok :: (body ++ (tail ++ (un ++ posts)))) ↔ Call.commit st ∈ tail := by
          intro st
          have h1 := hnoC st
          have h2 := hnoC2 st
          simp only [List.mem_append, List.mem_cons] at h1 h2 ⊢
          constructor
          · intro h; rcases h with h | h | h | h | h <;> simp_all
          · intro h; simp [h]
        obtain ⟨x0, l, htl, hx0, hl⟩ := ht.calls
        have hrest : ∀ z ∈ l ++ (un ++ posts), (∃ st, z = .commit st) ∨ (∃ st, z = .rollback st) ∨
            (∃ st, z = .busCommit st) ∨ (∃ st, z = .busRollback st) ∨ (∃ k st, z = .unlock k st) ∨ ∃ k st, z = .postSave k st := by
          intro z hz
          rw [List.mem_append, List.mem_append] at hz
          rcases hz with hz | hz | hz
          · rcases hl z hz with h | h | h | h
            · exact .inl h
            · exact .inr (.inl h)
            · exact .inr (.inr (.inl h))
            · exact .inr (.inr (.inr (.inl h)))
          · exact .inr (.inr (.inr (.inr (.inl (hul z hz)))))
          · exact .inr (.inr (.inr (.inr (.inr (hpl z hz)))))
        have hnb : ∀ z ∈ l ++ (un ++ posts), z ≠ .begin .ok := by
          intro z hz hb
          subst hb
          rcases hrest _ hz with ⟨_, h⟩ | ⟨_, h⟩ | ⟨_, h⟩ | ⟨_, h⟩ | ⟨_, _, h⟩ | ⟨_, _, h⟩ <;> simp at h
        rw [htl, List.cons_append] at r5
        cases r5 with
        | cons s2 r6 =>
          rename_i d3
          have hfin : ∀ w', d3 = ⟨w', none⟩ → d.openTx = none ∧ d.durable = w' := by
            rintro w' rfl
            exact ⟨dbRun_stays_closed rfl hnb r6, dbRun_closed rfl hrest r6⟩
          simp only [hmemC]
          have hwrites : Writes apply S0 (L ++ (Call.begin .ok :: (body ++ (tail ++ (un ++ posts))))) w := by
            refine writes_append (writes_silent ?_) (.other (by simp) (writes_append hwr (writes_silent ?_)))
            · intro x hx a st; obtain ⟨k, rfl⟩ := hlocks x hx; simp
            · intro x hx a st
              rw [htl, List.cons_append, List.mem_cons] at hx
              rcases hx with rfl | hx
              · rintro rfl; simp [isEnd] at hx0
              · rcases hrest x hx with ⟨_, rfl⟩ | ⟨_, rfl⟩ | ⟨_, rfl⟩ | ⟨_, rfl⟩ | ⟨_, _, rfl⟩ | ⟨_, _, rfl⟩ <;> simp
          rcases ht.outcome with ⟨⟨st, l', htl', hnc⟩, hrt⟩ | ⟨⟨l', htl', hnc⟩, hrt⟩ | ⟨⟨st, l', htl', hst, hnc⟩, hrt⟩
          all_goals (rw [htl] at htl'; obtain ⟨rfl, rfl⟩ := List.cons.inj htl')
          · simp only [DbStep] at s2
            obtain ⟨e2, e3⟩ := hfin _ s2
            refine ⟨e2, .inl ⟨?_, e3, fun r hr' => hrt r (hres r hr')⟩⟩
            intro st' hm; rw [htl] at hm; simp [hnc] at hm
          · simp [DbStep] at s2
            obtain ⟨e2, e3⟩ := hfin _ s2
            refine ⟨e2, .inr (.inl ⟨by simp [htl], ?_, ?_, fun r hr' => hrt r (hres r hr')⟩)⟩
            · intro st' hs hm; rw [htl] at hm; simp [hnc] at hm; exact hs hm
            · rw [e3]; exact hwrites
          · have hd3 : d3 = ⟨w, none⟩ ∨ d3 = ⟨S0, none⟩ := by
              simp only [DbStep] at s2
              rcases s2 with h | ⟨_, h⟩
              · exact .inl h
              · exact .inr h
            refine ⟨?_, .inr (.inr ⟨⟨st, hst, by simp [htl]⟩, ?_, hC16, fun r hr' => hrt r (hres r hr')⟩)⟩
            · rcases hd3 with h | h <;> exact (hfin _ h).1
            · intro hm; rw [htl] at hm; simp [hnc] at hm; exact hst hm.symm
  · have hi := init_fails_result (env := env) (opts := opts) (h := h) h1
    rw [hi.1] at hd ⊢
    cases hd
    exact ⟨rfl, .inl ⟨by simp, rfl, hi.2⟩⟩

end Ddd
