import Verif.Props.TxEvents
import Verif.Proofs.Program
import Verif.Props.Changes
/-!
# C12, C13: misuse of the repository and of the root container; C29: removed entities are remembered
-/
set_option linter.unusedVariables false
set_option linter.unusedSimpArgs false
namespace Ddd
open Spec

variable {env : Env} {opts : Opts} {c : Cmd} {h : Heap}

/-- exact effect of `Repository.Add`: all roots are added, or one error is recorded. -/
theorem repoAdd_effect (rs : List Ptr) (s : St) :
    (¬ AddMisuse rs s → repoAdd rs s = (.ok (), { s with roots := s.roots ++ rs })) ∧
    (AddMisuse rs s → ∃ pre e, pre <+: rs ∧ repoAdd rs s = (.ok (), { s with roots := s.roots ++ pre, errs := s.errs ++ [e] })) := by
  induction rs generalizing s with
  | nil =>
    refine ⟨fun _ => by simp [repoAdd, M.pure], fun hm => ?_⟩
    simp [AddMisuse] at hm
  | cons r rs ih =>
    unfold repoAdd
    by_cases h1 : s.hasSnapshot r = true
    · rw [if_pos h1]
      refine ⟨fun hn => absurd (.inl ⟨r, by simp, .inl h1⟩) hn, fun _ => ⟨[], errMustBeNew, List.nil_prefix, ?_⟩⟩
      simp [appendErr, M.modify]
    · rw [if_neg h1]
      unfold containerAdd
      by_cases h2 : r ∈ s.roots
      · rw [if_pos h2]
        refine ⟨fun hn => absurd (.inl ⟨r, by simp, .inr h2⟩) hn, fun _ => ⟨[], .sent .repeated, List.nil_prefix, ?_⟩⟩
        simp only [appendErr, M.modify, List.append_nil]
      · rw [if_neg h2]
        dsimp only
        have hiff : AddMisuse (r :: rs) s ↔ AddMisuse rs { s with roots := s.roots ++ [r] } := by
          unfold AddMisuse
          unfold St.hasSnapshot at h1
          simp only [List.mem_cons, exists_eq_or_imp, h1, h2, or_false, false_or, List.nodup_cons, List.mem_append,
            List.mem_singleton, Bool.false_eq_true]
          constructor
          · rintro (⟨x, hx, h3⟩ | h3)
            · exact .inl ⟨x, hx, by tauto⟩
            · by_cases h4 : r ∈ rs
              · exact .inl ⟨r, h4, by simp⟩
              · exact .inr fun h5 => h3 ⟨h4, h5⟩
          · rintro (⟨x, hx, h3 | h3 | rfl | h3⟩ | h3)
            · exact .inl ⟨x, hx, .inl h3⟩
            · exact .inl ⟨x, hx, .inr h3⟩
            · exact .inr fun h5 => h5.1 hx
            · simp at h3
            · exact .inr fun h5 => h3 h5.2
        obtain ⟨ih1, ih2⟩ := ih { s with roots := s.roots ++ [r] }
        constructor
        · intro hn
          rw [ih1 (by rwa [← hiff])]
          simp
        · intro hm
          obtain ⟨pre, e, h3, h4⟩ := ih2 (hiff.1 hm)
          exact ⟨r :: pre, e, by simpa using h3, by rw [h4]; simp⟩

/-- exact effect of the removal loop. -/
theorem repoRemoveLoop_effect (rs : List Ptr) (s : St) :
    ((∀ r ∈ rs, r ∈ s.roots) ∧ rs.Nodup → repoRemoveLoop rs s =
      (.ok (), { s with roots := s.roots.filter fun x => decide (x ∉ rs), deleted := s.deleted ++ rs.map some })) ∧
    (¬ ((∀ r ∈ rs, r ∈ s.roots) ∧ rs.Nodup) → ∃ e, (repoRemoveLoop rs s).1 = .ok () ∧ (repoRemoveLoop rs s).2.errs = s.errs ++ [e]) := by
  induction rs generalizing s with
  | nil => simp [repoRemoveLoop, M.pure]
  | cons r rs ih =>
    unfold repoRemoveLoop containerRemove
    by_cases h2 : r ∈ s.roots
    · rw [if_pos h2]
      dsimp only
      obtain ⟨ih1, ih2⟩ := ih { s with roots := s.roots.filter fun x => decide (x ≠ r), deleted := s.deleted ++ [some r] }
      have hiff : ((∀ x ∈ r :: rs, x ∈ s.roots) ∧ (r :: rs).Nodup) ↔
          ((∀ x ∈ rs, x ∈ s.roots.filter fun x => decide (x ≠ r)) ∧ rs.Nodup) := by
        simp only [List.mem_cons, forall_eq_or_imp, h2, true_and, List.nodup_cons, List.mem_filter, decide_eq_true_eq]
        constructor
        · rintro ⟨h3, h4, h5⟩
          exact ⟨fun x hx => ⟨h3 x hx, fun he => h4 (he ▸ hx)⟩, h5⟩
        · rintro ⟨h3, h5⟩
          exact ⟨fun x hx => (h3 x hx).1, fun hx => (h3 r hx).2 rfl, h5⟩
      constructor
      · intro hn
        rw [ih1 (hiff.1 hn)]
        simp only [List.filter_filter, List.map_cons, List.append_assoc, List.singleton_append]
        congr 2
        apply List.filter_congr
        intro x _
        simp only [List.mem_cons, not_or]
        by_cases h3 : x = r <;> by_cases h4 : x ∈ rs <;> simp [h3, h4]
      · intro hn
        exact ih2 (by rwa [← hiff])
    · rw [if_neg h2]
      dsimp only
      refine ⟨fun hn => absurd (hn.1 r (by simp)) h2, fun _ => ⟨_, rfl, rfl⟩⟩

/-- `Repository.Remove` with a misuse records an error (or the converter panics while recording the snapshot). -/
theorem repoRemove_misuse (opts : Opts) {rs : List Ptr} {s s' : St} (hm : RemoveMisuse rs s) (h : repoRemove env rs s = (.ok (), s')) : s'.errs ≠ [] := by
  unfold repoRemove at h
  dsimp only at h
  split at h
  · next hall =>
    have hroots : ∀ r ∈ rs, r ∈ s.roots := by
      intro r hr
      by_contra hc
      have : r ∈ rs.filter fun r => decide (r ∉ s.roots) := by simp [hr, hc]
      rw [List.isEmpty_iff.1 hall] at this; simp at this
    have hnd : ¬ rs.Nodup := by
      rcases hm with ⟨r, hr, _, h2⟩ | h2
      · exact absurd (hroots r hr) h2
      · exact h2
    obtain ⟨e, _, he⟩ := (repoRemoveLoop_effect rs s).2 (fun hc => hnd hc.2)
    rw [h] at he
    simp only at he
    rw [he]; simp
  · next hall =>
    by_cases hmis : AddMisuse (rs.filter fun r => decide (r ∉ s.roots)) s
    · obtain ⟨pre, e, _, he⟩ := (repoAdd_effect _ s).2 hmis
      rw [he] at h
      dsimp only at h
      have hne : ∀ s2 : St, s.errs ++ [e] <+: s2.errs → s2.errs ≠ [] := by
        intro s2 hp h0; rw [h0] at hp; simp at hp
      have hup := (allows_errs (env := env) (opts := opts)).updateSnapshot (env := env) { s with roots := s.roots ++ pre, errs := s.errs ++ [e] }
      split at h
      · simp at h
      · next h2 =>
        rw [h2] at hup
        simp only [appendErr, M.modify, Prod.mk.injEq, true_and] at h
        rw [← h]; simp
      · next s2 h2 =>
        rw [h2] at hup
        have hl := (allows_errs (env := env) (opts := opts)).repoRemoveLoop rs s2
        rw [h] at hl
        exact hne s' (List.IsPrefix.trans hup hl)
    · rw [(repoAdd_effect _ s).1 hmis] at h
      dsimp only at h
      split at h
      · simp at h
      · next h2 =>
        simp only [appendErr, M.modify, Prod.mk.injEq, true_and] at h
        rw [← h]; simp
      · next s2 h2 =>
        -- the loop meets a root twice, or one that is tracked without being a root (excluded: it would be an Add misuse)
        have hnd : ¬ rs.Nodup := by
          rcases hm with ⟨r, hr, h3, h4⟩ | h3
          · exact absurd (.inl ⟨r, by simp [hr, h4], .inl h3⟩) hmis
          · exact h3
        obtain ⟨e, _, he⟩ := (repoRemoveLoop_effect rs s2).2 (fun hc => hnd hc.2)
        rw [h] at he
        simp only at he
        rw [he]; simp

/-- the misuse of the repository at a program point. -/
def Misuse (p : Prog) (s : St) : Prop :=
  (∃ rs k, p = .add rs k ∧ AddMisuse rs s) ∨ ∃ rs k, p = .remove rs k ∧ RemoveMisuse rs s

theorem misuse_next {p p' : Prog} {s s' : St} (hm : Misuse p s) (hn : Next env opts p s p' s') : s'.errs ≠ [] := by
  rcases hm with ⟨rs, k, rfl, hm⟩ | ⟨rs, k, rfl, hm⟩
  · cases hn with
    | add h =>
      obtain ⟨pre, e, _, he⟩ := (repoAdd_effect rs s).2 hm
      rw [he] at h
      simp only [Prod.mk.injEq, true_and] at h
      rw [← h]; simp
  · cases hn with
    | remove h => exact repoRemove_misuse opts hm h

/-- **C12** After a misuse of the repository every later `Repository.Save` returns an error and does nothing at all. -/
theorem C12_later_saves_fail {p p1 p' : Prog} {s s1 s' : St} (hm : Misuse p s) (hn : Next env opts p s p1 s1)
    (hv : Visits env opts p1 s1 p' s') : ∃ e, repoSave env opts s' = (.err e, s') := by
  have h1 := misuse_next hm hn
  have h2 : s'.errs ≠ [] := by
    intro h0
    have := (allows_errs (env := env) (opts := opts)).visits hv
    rw [h0] at this
    exact h1 (by simpa using this)
  unfold repoSave
  cases he : s'.errs with
  | nil => exact absurd he h2
  | cons e es => exact ⟨_, rfl⟩

/-- misuse passed: the recorded errors at the end of `Main` are not empty, or the misusing call itself panicked (converter). -/
theorem misuse_end {p : Prog} {s s0 : St} {main : Prog} (hv : Visits env opts main s0 p s) (hm : Misuse p s) :
    (runProg env opts main s0).1 = .panic ∨ (runProg env opts main s0).2.errs ≠ [] := by
  rw [hv.run]
  have fin : ∀ p1 s1, s1.errs ≠ [] → (runProg env opts p1 s1).2.errs ≠ [] := by
    intro p1 s1 h1 h0
    have := (allows_errs (env := env) (opts := opts)).runProg p1 s1
    rw [h0] at this
    exact h1 (by simpa using this)
  have hm' := hm
  rcases hm with ⟨rs, k, rfl, hm⟩ | ⟨rs, k, rfl, hm⟩
  · right
    obtain ⟨pre, e, _, he⟩ := (repoAdd_effect rs s).2 hm
    simp only [runProg, M.bind, he]
    exact fin _ _ (by simp)
  · cases hr : repoRemove env rs s with
    | mk r s1 =>
      cases r with
      | panic => left; simp only [runProg, M.bind, hr]
      | ok u =>
        right
        simp only [runProg, M.bind, hr]
        exact fin _ _ (repoRemove_misuse opts hm hr)
      | err e =>
        exfalso
        have noerr : ∀ s2 e s3, repoRemoveLoop rs s2 ≠ (.err e, s3) := by
          intro s2 e s3 hx
          by_cases hc : (∀ r ∈ rs, r ∈ s2.roots) ∧ rs.Nodup
          · rw [(repoRemoveLoop_effect rs s2).1 hc] at hx; simp at hx
          · obtain ⟨_, h1, _⟩ := (repoRemoveLoop_effect rs s2).2 hc
            rw [hx] at h1; simp at h1
        unfold repoRemove at hr
        dsimp only at hr
        split at hr
        · exact noerr _ _ _ hr
        · split at hr
          · simp at hr
          · split at hr
            · simp at hr
            · simp [appendErr, M.modify] at hr
            · exact noerr _ _ _ hr

theorem keys_unique {k1 k2 : List Nat} (h1 : c.Keys k1) (h2 : c.Keys k2) : k1 = k2 := by
  rcases h1 with ⟨h1, rfl⟩ | h1 <;> rcases h2 with ⟨h2, rfl⟩ | h2 <;> simp_all

/-- **C12** If `Main` comes to a misusing `Repository.Add` or `Repository.Remove`, then whatever it does afterwards: the transaction is never
committed, no event is persisted or dispatched, and the command ends with an error (or `Main` panicked, or `Main` itself asked for a break). -/
theorem C12_misuse_fails {keys : List Nat} (hk : c.Keys keys) {p : Prog} {s : St}
    (hv : Visits env (c.opts opts) c.main (atStart (c.opts opts) keys (.fresh h)) p s) (hm : Misuse p s) :
    (∀ st, Call.commit st ∉ (run env opts c h).2.trace) ∧ (∀ x ∈ (run env opts c h).2.trace, isEventCall x = false) ∧
    (Call.begin .ok ∈ (run env opts c h).2.trace → ∃ st, Call.rollback st ∈ (run env opts c h).2.trace) ∧
    (∀ r, (run env opts c h).1 = some r → r.error.isSome ∨
      (r.brk = true ∧ ∃ e, (runProg env (c.opts opts) c.main (atStart (c.opts opts) keys (.fresh h))).1 = .err e ∧ Carries .brk e)) := by
  have hend := misuse_end hv hm
  have hcall := callMain_runProg (env := env) (opts := c.opts opts) c.main keys (.fresh h)
  have hbad : (callMain env (c.opts opts) c.main (atMain (c.opts opts) keys (.fresh h))).1 = .panic ∨
      (callMain env (c.opts opts) c.main (atMain (c.opts opts) keys (.fresh h))).2.errs ≠ [] := by
    rw [hcall]; exact hend
  have hnc : ∀ st, Call.commit st ∉ (run env opts c h).2.trace := by
    intro st hc
    obtain ⟨keys', pre, tm, fin, post, hk', hT, hpre, _, _, _, herr⟩ := C15_commit_only_after_success hc
    obtain rfl := keys_unique hk hk'
    rcases hbad with h1 | h1
    · -- Main panicked: then mainRet is not ok
      obtain ⟨B⟩ := run_body (env := env) (opts := opts) (c := c) (h := h) ⟨.mainStart, by rw [hT]; simp, trivial⟩
      obtain rfl := keys_unique hk B.hk
      have hst := B.d.mainSt
      rw [h1] at hst
      have hc' := hc
      obtain ⟨a, b, hab⟩ := List.append_of_mem hc
      obtain ⟨m1, m2, e1, e2, e3⟩ := B.inTail hab (by simp)
      have hw : opts.withTransaction = true := by
        by_contra hw
        have := (B.hplain (by simpa using hw)).1
        rw [e1] at this; simp at this
      have ht := B.htx hw
      have : ∃ r, (doStage env (c.opts opts) c.main (atMain (c.opts opts) B.keys (.fresh h))).1 = some r ∧ r.clean := by
        have hin : Call.commit st ∈ B.tail := by rw [e1]; simp
        generalize (doStage env (c.opts opts) c.main (atMain (c.opts opts) B.keys (.fresh h))).1 = o at ht ⊢
        generalize B.tail = q at ht hin
        generalize B.rt = rt at ht
        clear e1 e2 e3
        cases ht <;> simp at hin <;> exact ⟨_, rfl, by assumption⟩
      obtain ⟨r, hr, hcl⟩ := this
      have := (B.d.clean r hr hcl).1
      rw [hst] at this; simp [Res.stat] at this
    · exact h1 herr
  refine ⟨hnc, ?_, ?_, ?_⟩
  · intro x hx
    by_contra hne
    obtain ⟨B⟩ := isEventCall_body hx (by simpa using hne)
    obtain rfl := keys_unique hk B.hk
    have := B.eventCalls hx (by simpa using hne)
    obtain ⟨h1, h2⟩ := B.d.stop (by intro h0; simp only [List.append_eq_nil_iff] at h0; rw [h0.2.1, h0.2.2] at this; simp at this)
    rcases hbad with h3 | h3
    · have hst := B.d.mainSt
      rw [h3, h1] at hst; simp [Res.stat] at hst
    · exact h3 h2
  · intro hb
    exact (C15_otherwise_rolled_back hb hnc).1
  · intro r hr
    cases he : r.error with
    | some e => exact .inl rfl
    | none =>
      right
      have hmain : ∃ B : BodyOf env opts c h, (doStage env (c.opts opts) c.main (atMain (c.opts opts) B.keys (.fresh h))).1 = some r := by
        have hbody : ∃ x ∈ (run env opts c h).2.trace, x.IsBody opts.dryRun := by
          rcases run_anatomy env opts c h with ⟨keys', hk', an⟩ | ⟨h1, h0⟩
          · rw [hr] at an
            generalize (run env opts c h).2.trace = T at an
            cases an with
            | early _ _ he' hres => have := (hres r rfl).1; rw [he] at this; simp at this
            | plain body un posts _ b hn hw hbody hr hpp =>
              obtain ⟨d, rfl⟩ := doStage_body _ _ hbody
              exact ⟨.mainStart, by simp, trivial⟩
            | tx body tail un posts rt _ b hn hw hbody ht hr hpp =>
              obtain ⟨d, rfl⟩ := doStage_body _ _ hbody
              exact ⟨.mainStart, by simp, trivial⟩
          · exfalso
            rcases hk with ⟨hi, _⟩ | hi <;> rcases h1 with ⟨e, h1⟩ | h1 <;> rw [hi] at h1 <;> simp at h1
        obtain ⟨B⟩ := run_body hbody
        refine ⟨B, ?_⟩
        have hrt := B.hres r hr
        cases hw : opts.withTransaction with
        | false => rw [← (B.hplain hw).2, hrt]
        | true =>
          have ht := B.htx hw
          have hin : ∀ st, Call.commit st ∉ B.tail := by
            intro st hc; exact hnc st (by rw [B.eq]; simp [hc])
          rw [hrt] at ht
          generalize (doStage env (c.opts opts) c.main (atMain (c.opts opts) B.keys (.fresh h))).1 = o at ht ⊢
          generalize hq : some r = q at ht
          generalize B.tail = tl at ht hin
          clear hrt hr
          cases ht <;> simp_all
      obtain ⟨B, hdo⟩ := hmain
      obtain rfl := keys_unique hk B.hk
      cases hcm : callMain env (c.opts opts) c.main (atMain (c.opts opts) B.keys (.fresh h)) with
      | mk rr s1 =>
        rw [hcm] at hbad hcall
        unfold doStage at hdo
        rw [hcm] at hdo
        have hrr := congrArg Prod.fst hcall
        simp only at hrr
        cases rr with
        | panic => simp at hdo
        | err e =>
          simp only [Option.some.injEq] at hdo
          unfold resultErrOrBreak at hdo
          split at hdo
          · next hb => exact ⟨by rw [← hdo], e, hrr.symm, is_iff.1 hb⟩
          · rw [← hdo] at he; simp [resultError] at he
        | ok u =>
          exfalso
          simp only [reduceCtorEq, false_or] at hbad
          dsimp only at hdo
          cases hes : s1.errs with
          | nil => exact hbad hes
          | cons e0 es =>
            rw [hes] at hdo
            simp only [Err.joinAll, Option.some.injEq] at hdo
            rw [← hdo] at he; simp [resultError] at he

/-! ## C29: removed entities are remembered until the end -/

/-- **C29** Every entity a save deletes is remembered, as is every root removed through the repository or the container, and nothing remembered
is forgotten by anything the command does later; so its events are pending at the end (`C29_dispatched`). -/
theorem C29_removed_remembered :
    (∀ s s', persist env opts s = (.ok (), s') → ∃ t, s'.trace = s.trace ++ t ∧ ∀ n p, (⟨n, p, .delete⟩ : Job) ∈ asked t → n ∈ s'.deleted) ∧
    (∀ s s' r, containerRemove r s = (.ok (), s') → some r ∈ s'.deleted) ∧
    (∀ s s' rs, repoRemove env rs s = (.ok (), s') → s.errs = [] → s'.errs = [] → ∀ r ∈ rs, some r ∈ s'.deleted) ∧
    (∀ p s p' s', Visits env opts p s p' s' → s.deleted <+: s'.deleted) ∧
    (∀ p s, s.deleted <+: (runProg env opts p s).2.deleted) ∧ (∀ s, s.deleted <+: (persist env opts s).2.deleted) := by
  refine ⟨?_, ?_, ?_, fun p s p' s' hv => allows_deleted.visits hv, fun p s => allows_deleted.runProg p s, fun s => (allows_deleted (env := env) (opts := opts)).persist s⟩
  · intro s s' hp
    obtain ⟨cs, t, hc, ht, ha⟩ := save_calls env opts hp
    refine ⟨t, ht, ?_⟩
    intro n p hj
    rw [ha] at hj
    obtain ⟨cs', _, _, _, _, _, hc', _, _, _, _, _, _, _, _, hdel, _⟩ := persist_effect env opts hp
    rw [hc] at hc'
    obtain rfl := Option.some.inj hc'
    rw [mem_jobs] at hj
    obtain ⟨ch, h1, h2, h3, h4⟩ := hj
    have hm := changes_mem env opts hc
    have hd : ch.ctype = .delete := by
      rcases (ctype_op_iff _ _).1 h2 with h5 | h5
      · exact h5
      · exact absurd ((hm .clear ch.parent n).1 ⟨ch, h1, h5, rfl, h4⟩) id
    rw [hdel]
    refine List.mem_append_right _ (List.mem_flatMap.2 ⟨ch, ?_, h4⟩)
    simp [h1, hd]
  · intro s s' r hr
    unfold containerRemove at hr
    split at hr
    · simp only [Prod.mk.injEq, true_and] at hr; rw [← hr]; simp
    · simp at hr
  · intro s s' rs hr hz hz' r hrm
    have fin : ∀ s2, repoRemoveLoop rs s2 = (.ok (), s') → some r ∈ s'.deleted := by
      intro s2 h2
      by_cases hc : (∀ r ∈ rs, r ∈ s2.roots) ∧ rs.Nodup
      · rw [(repoRemoveLoop_effect rs s2).1 hc] at h2
        simp only [Prod.mk.injEq, true_and] at h2
        rw [← h2]; simp [hrm]
      · obtain ⟨e, _, he⟩ := (repoRemoveLoop_effect rs s2).2 hc
        rw [h2] at he
        simp only at he
        rw [hz'] at he; simp at he
    unfold repoRemove at hr
    dsimp only at hr
    split at hr
    · exact fin _ hr
    · split at hr
      · simp at hr
      · split at hr
        · simp at hr
        · simp only [appendErr, M.modify, Prod.mk.injEq, true_and] at hr
          rw [← hr] at hz'; simp at hz'
        · exact fin _ hr

/-! ## Concrete cases -/

namespace Demo
/-- loads root 7 and adds it again. -/
def getThenAdd : Cmd := { init := none, main := .get 7 fun _ => .add [7] (.save fun _ => .ret none), post := none }
/-- adds 7, then 9 twice, then saves. -/
def addDup : Cmd := { init := none, main := .add [7] (.add [9, 9] (.save fun _ => .ret none)), post := none }
/-- an `ICommand` adding the same root twice through the container. -/
def addTwice : Cmd := { init := none, main := .enter [] (.cAdd 7 (.cAdd 7 (.ret none))), post := none }
/-- an `ICommand` removing an unknown root through the container. -/
def removeUnknown : Cmd := { init := none, main := .enter [] (.cRemove 7 (.ret none)), post := none }
end Demo

open Demo in
/-- the hypotheses of C12 are met: adding 7 and then twice 9 is a misuse; the command fails and is rolled back. -/
example : (∃ p s, Visits okEnv (addDup.opts txOpts) addDup.main (atStart (addDup.opts txOpts) [] (.fresh evHeap)) p s ∧ Misuse p s) ∧
    (run okEnv txOpts addDup evHeap).1.map (fun r => r.error.isSome) = some true ∧
    ends (run okEnv txOpts addDup evHeap).2.trace = [.rollback .ok] := by
  refine ⟨⟨_, _, .step (.add rfl) (.here _ _), .inl ⟨[9, 9], _, rfl, .inr (by simp)⟩⟩, by decide +kernel, by decide +kernel⟩

open Demo in
/-- loading 7 and then adding it. -/
example : (run okEnv txOpts getThenAdd evHeap).1.map (fun r => r.error.isSome) = some true ∧
    ends (run okEnv txOpts getThenAdd evHeap).2.trace = [.rollback .ok] := by decide +kernel

open Demo in
/-- **C13** is false of the code: `RootContainer` is passed to `Act` by value, its errors are lost and the misusing commands commit. -/
theorem C13_container_misuse_commits :
    ((run okEnv txOpts addTwice evHeap).1.map (fun r => (r.error.isNone, r.brk)) = some (true, false) ∧
      ends (run okEnv txOpts addTwice evHeap).2.trace = [.commit .ok]) ∧
    ((run okEnv txOpts removeUnknown evHeap).1.map (fun r => (r.error.isNone, r.brk)) = some (true, false) ∧
      ends (run okEnv txOpts removeUnknown evHeap).2.trace = [.commit .ok]) := by decide +kernel

/-- **C13**: more generally a misuse of the container changes nothing at all. -/
theorem C13_container_misuse_ignored (r : Ptr) (k : Prog) (s : St) :
    (r ∈ s.roots → runProg env opts (.cAdd r k) s = runProg env opts k s) ∧
    (r ∉ s.roots → runProg env opts (.cRemove r k) s = runProg env opts k s) := by
  constructor <;> intro hr <;> simp [runProg, M.bind, M.attempt, containerAdd, containerRemove, hr]

end Ddd
