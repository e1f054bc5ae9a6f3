import Verif.Props.Atomic
import Verif.Spec.Err
/-!
# C18, C19, C21, C22, C23, C61: break, PostSave hooks, dry run, locks
-/
set_option linter.unusedVariables false
set_option linter.unusedSimpArgs false
set_option linter.unusedTactic false
namespace Ddd
open Spec

variable {env : Env} {opts : Opts} {c : Cmd} {h : Heap}

theorem Cmd.Keys.unique {keys keys' : List Nat} (h1 : c.Keys keys) (h2 : c.Keys keys') : keys = keys' := by
  rcases h1 with ⟨a, rfl⟩ | a <;> rcases h2 with ⟨b, rfl⟩ | b <;> simp_all

theorem Cmd.Keys.not_fails {keys : List Nat} (h1 : c.Keys keys) : ¬ c.InitFails := by
  rintro (⟨e, h2⟩ | h2) <;> rcases h1 with ⟨a, _⟩ | a <;> simp_all

/-! ## C18 -/

mutual
/-- `errors.Is` recognises exactly what carries the error -/
theorem carries_is {s : Sentinel} : ∀ e : Err, e.is s = true → Carries s e
  | .sent s', h => by simp [Err.is] at h; subst h; exact .itself
  | .msg _, h => by simp [Err.is] at h
  | .wrap e, h => .wrapped (carries_is e (by simpa [Err.is] using h))
  | .errList _, h => by simp [Err.is] at h
  | .join es, h => by
    obtain ⟨e, he, hc⟩ := carries_isAny es (by simpa [Err.is] using h)
    exact .joined he hc
theorem carries_isAny {s : Sentinel} : ∀ es : List Err, Err.isAny s es = true → ∃ e ∈ es, Carries s e
  | [], h => by simp [Err.isAny] at h
  | e :: es, h => by
    rw [Err.isAny, Bool.or_eq_true] at h
    rcases h with h | h
    · exact ⟨e, by simp, carries_is e h⟩
    · obtain ⟨x, hx, hc⟩ := carries_isAny es h
      exact ⟨x, by simp [hx], hc⟩
end

theorem isAny_of_mem {s : Sentinel} {e : Err} {es : List Err} (hm : e ∈ es) (h : e.is s = true) : Err.isAny s es = true := by
  induction es with
  | nil => simp at hm
  | cons a es ih =>
    rw [Err.isAny, Bool.or_eq_true]
    rcases List.mem_cons.1 hm with rfl | hm
    · exact .inl h
    · exact .inr (ih hm)

theorem is_carries {s : Sentinel} {e : Err} (h : Carries s e) : e.is s = true := by
  induction h with
  | itself => simp [Err.is]
  | wrapped _ ih => simpa [Err.is] using ih
  | joined hm _ ih => simpa [Err.is] using isAny_of_mem hm ih

theorem is_iff {s : Sentinel} {e : Err} : e.is s = true ↔ Carries s e := ⟨carries_is e, is_carries⟩

/-- wrapped, joined with others, wrapped again -/
example : Carries .brk (.wrap (.join [.msg 3, .wrap (.sent .brk)])) ∧ ¬ Carries .brk (.errList [.sent .brk]) :=
  ⟨.wrapped (.joined (e := .wrap (.sent .brk)) (by simp) (.wrapped .itself)), by intro h; cases h⟩

/-- the outcome of `do` when `Main` returned a break. -/
theorem doStage_brk {main : Prog} {s : St} {e : Err} (hm : (callMain env opts main s).1 = .err e) (he : e.is .brk = true) :
    (doStage env opts main s).1 = some { error := none, brk := true, actions := [], output := 0 } := by
  unfold doStage
  generalize callMain env opts main s = x at hm
  obtain ⟨r, s1⟩ := x
  simp only at hm
  subst hm
  simp [resultErrOrBreak, he]

theorem TxTail.broken {pend : Bool} {r : Result} {rt : Option Result} {t : Trace} (h : TxTail env pend (some r) t rt) (hb : r.brk = true) :
    (∀ st, Call.commit st ∉ t) ∧ (∀ st, Call.busCommit st ∉ t) ∧ ∀ x, rt = some x → x = r := by
  cases h <;> simp_all [Result.clean]

theorem PostPhase.result {r r' : Option Result} {t : Trace} (h : PostPhase opts r t r') : ∀ x, r' = some x → r = some x := by
  cases h with
  | panicked => simp
  | failed r h => simp
  | posted r b t h1 h2 => intro x hx; split at hx <;> simp_all

/-- **C18** (Main) If `Main` was called and returned an error that is `ErrBreak` (wrapped or not), nothing is committed, neither on the
executor nor on the bus, and the result (if no external call panics) has no error and `Break` set. -/
theorem C18_break_main {keys : List Nat} {e : Err} (hk : c.Keys keys) (hs : Call.mainStart ∈ (run env opts c h).2.trace)
    (hm : (callMain env (c.opts opts) c.main (atMain (c.opts opts) keys (.fresh h))).1 = .err e) (he : Carries .brk e) :
    (∀ st, Call.commit st ∉ (run env opts c h).2.trace) ∧ (∀ st, Call.busCommit st ∉ (run env opts c h).2.trace) ∧
    (∀ r, (run env opts c h).1 = some r → r.error = none ∧ r.brk = true) := by
  have hd := doStage_brk hm (is_iff.2 he)
  rcases run_anatomy env opts c h with ⟨keys', hk', an⟩ | ⟨h1, h0⟩
  · obtain rfl := hk.unique hk'
    generalize (run env opts c h).2.trace = T at an hs ⊢
    generalize (run env opts c h).1 = R at an ⊢
    cases an with
    | early _ _ he hr => rcases he.noBody _ hs with ⟨_, _, h⟩ | ⟨_, _, h⟩ | ⟨_, _, h⟩ <;> simp at h
    | plain body un posts _ b hn hw hbody hr hpp =>
      have hB := body_isBody _ _ hbody
      have hno : ∀ x ∈ ((keys.insertionSort (· ≤ ·)).map fun k => Call.lock k .ok) ++ (body ++ (un ++ posts)),
          (∃ k st, x = .lock k st) ∨ x.IsBody opts.dryRun ∨ (∃ k st, x = .unlock k st) ∨ ∃ k st, x = .postSave k st := by
        intro x hx
        rw [List.mem_append, List.mem_append, List.mem_append] at hx
        rcases hx with hx | hx | hx | hx
        · obtain ⟨k, _, rfl⟩ := List.mem_map.1 hx; exact .inl ⟨_, _, rfl⟩
        · exact .inr (.inl (hB x hx))
        · exact .inr (.inr (.inl (hr.isUnlock x hx)))
        · exact .inr (.inr (.inr (hpp.isPost x hx)))
      refine ⟨fun st hx => ?_, fun st hx => ?_, ?_⟩
      · rcases hno _ hx with ⟨_, _, h⟩ | h | ⟨_, _, h⟩ | ⟨_, _, h⟩ <;> simp [Call.IsBody] at h
      · rcases hno _ hx with ⟨_, _, h⟩ | h | ⟨_, _, h⟩ | ⟨_, _, h⟩ <;> simp [Call.IsBody] at h
      · intro r hr
        have := hpp.result r hr
        rw [hd] at this
        split at this
        · obtain rfl := (Option.some.inj this); exact ⟨rfl, rfl⟩
        · simp at this
    | tx body tail un posts rt _ b hn hw hbody ht hr hpp =>
      rw [hd] at ht
      obtain ⟨hc1, hc2, hrt⟩ := ht.broken rfl
      have hB := body_isBody _ _ hbody
      have hno : ∀ x ∈ ((keys.insertionSort (· ≤ ·)).map fun k => Call.lock k .ok) ++ (.begin .ok :: (body ++ (tail ++ (un ++ posts)))),
          (∃ k st, x = .lock k st) ∨ x = .begin .ok ∨ x.IsBody opts.dryRun ∨ x ∈ tail ∨ (∃ k st, x = .unlock k st) ∨ ∃ k st, x = .postSave k st := by
        intro x hx
        rw [List.mem_append, List.mem_cons, List.mem_append, List.mem_append, List.mem_append] at hx
        rcases hx with hx | rfl | hx | hx | hx | hx
        · obtain ⟨k, _, rfl⟩ := List.mem_map.1 hx; exact .inl ⟨_, _, rfl⟩
        · exact .inr (.inl rfl)
        · exact .inr (.inr (.inl (hB x hx)))
        · exact .inr (.inr (.inr (.inl hx)))
        · exact .inr (.inr (.inr (.inr (.inl (hr.isUnlock x hx)))))
        · exact .inr (.inr (.inr (.inr (.inr (hpp.isPost x hx)))))
      refine ⟨fun st hx => ?_, fun st hx => ?_, ?_⟩
      · rcases hno _ hx with ⟨_, _, h⟩ | h | h | h | ⟨_, _, h⟩ | ⟨_, _, h⟩
        any_goals (simp [Call.IsBody] at h; done)
        exact hc1 _ h
      · rcases hno _ hx with ⟨_, _, h⟩ | h | h | h | ⟨_, _, h⟩ | ⟨_, _, h⟩
        any_goals (simp [Call.IsBody] at h; done)
        exact hc2 _ h
      · intro r hr
        have := hpp.result r hr
        split at this
        · obtain rfl := hrt _ this; exact ⟨rfl, rfl⟩
        · simp at this
  · rw [h0] at hs; simp at hs

/-- **C18** (Init) If `Init` returns an error that is `ErrBreak`, nothing at all is called and the result is a break without error. -/
theorem C18_break_init {e : Err} (hi : c.init = some (.err e)) (he : Carries .brk e) :
    (run env opts c h).2.trace = [] ∧ ∃ r, (run env opts c h).1 = some r ∧ r.error = none ∧ r.brk = true := by
  unfold run
  rw [hi]
  simp [resultErrOrBreak, is_iff.2 he, St.fresh]

/-- **C18** (converse) `Break` is set only if `Main` or `Init` ended with `ErrBreak`. -/
theorem C18_break_only {r : Result} (hr : (run env opts c h).1 = some r) (hb : r.brk = true) :
    ∃ e : Err, Carries .brk e ∧ (c.init = some (.err e) ∨
      ∃ keys, c.Keys keys ∧ (callMain env (c.opts opts) c.main (atMain (c.opts opts) keys (.fresh h))).1 = .err e) := by
  have key : ∀ keys r, (doStage env (c.opts opts) c.main (atMain (c.opts opts) keys (.fresh h))).1 = some r → r.brk = true →
      ∃ e : Err, Carries .brk e ∧ (callMain env (c.opts opts) c.main (atMain (c.opts opts) keys (.fresh h))).1 = .err e := by
    intro keys r hr hb
    unfold doStage at hr
    generalize callMain env (c.opts opts) c.main (atMain (c.opts opts) keys (.fresh h)) = x at hr ⊢
    obtain ⟨q, s1⟩ := x
    cases q with
    | panic => simp at hr
    | err e =>
      refine ⟨e, ?_, rfl⟩
      simp only [Option.some.injEq] at hr
      subst hr
      unfold resultErrOrBreak at hb
      split at hb
      · exact is_iff.1 ‹_›
      · simp [resultError] at hb
    | ok u =>
      dsimp only at hr
      exfalso
      repeat' split at hr
      all_goals simp_all [resultError, resultErrors]
      all_goals (subst hr; simp [resultError, resultErrors] at hb)
  rcases run_anatomy env opts c h with ⟨keys, hk, an⟩ | ⟨h1, h0⟩
  · generalize (run env opts c h).2.trace = T at an
    rw [hr] at an
    cases an with
    | early _ _ he hres => exact absurd hb (by rw [(hres r rfl).2]; simp)
    | plain body un posts _ b hn hw hbody hrel hpp =>
      have := hpp.result r rfl
      split at this
      · obtain ⟨e, h1, h2⟩ := key keys r this hb
        exact ⟨e, h1, .inr ⟨keys, hk, h2⟩⟩
      · simp at this
    | tx body tail un posts rt _ b hn hw hbody ht hrel hpp =>
      have := hpp.result r rfl
      split at this
      · subst this
        have hd : ∃ r', (doStage env (c.opts opts) c.main (atMain (c.opts opts) keys (.fresh h))).1 = some r' ∧ r'.brk = true := by
          generalize (doStage env (c.opts opts) c.main (atMain (c.opts opts) keys (.fresh h))).1 = o at ht
          generalize hrt : some r = rt at ht
          cases ht <;> first
            | (simp at hrt; done)
            | (refine ⟨_, rfl, ?_⟩; rw [Option.some.injEq] at hrt; subst hrt; exact hb)
        obtain ⟨r', h1, h2⟩ := hd
        obtain ⟨e, h1, h2⟩ := key keys r' h1 h2
        exact ⟨e, h1, .inr ⟨keys, hk, h2⟩⟩
      · simp at this
  · rcases h1 with ⟨e, hi⟩ | hi
    · refine ⟨e, ?_, .inl hi⟩
      unfold run at hr
      rw [hi] at hr
      simp only [Option.some.injEq] at hr
      subst hr
      unfold resultErrOrBreak at hb
      split at hb
      · exact is_iff.1 ‹_›
      · simp [resultError] at hb
    · unfold run at hr; rw [hi] at hr; simp at hr

/-! ## C19 -/

/-- the PostSave hooks called, in order. -/
def hooksRun (t : Trace) : List Nat := t.filterMap fun | .postSave k _ => some k | _ => none

theorem hooksRun_append (a b : Trace) : hooksRun (a ++ b) = hooksRun a ++ hooksRun b := by simp [hooksRun]

theorem hooksRun_nil {t : Trace} (h : ∀ k st, Call.postSave k st ∉ t) : hooksRun t = [] := by
  unfold hooksRun
  rw [List.filterMap_eq_nil_iff]
  intro x hx
  cases x <;> simp
  exact h _ _ hx

theorem Posted.keys {ks : List Nat} {b : Bool} {t : Trace} (h : Posted ks b t) : hooksRun t <+: ks ∧ (b = true → hooksRun t = ks) := by
  induction h with
  | nil => simp [hooksRun]
  | cons k ks st b t hst hr ih =>
    have : hooksRun (Call.postSave k st :: t) = k :: hooksRun t := rfl
    rw [this]
    exact ⟨List.cons_prefix_cons.2 ⟨rfl, ih.1⟩, fun hb => by rw [ih.2 hb]⟩
  | panic k ks =>
    have : hooksRun [Call.postSave k .panic] = [k] := rfl
    rw [this]
    exact ⟨List.cons_prefix_cons.2 ⟨rfl, List.nil_prefix⟩, by simp⟩

/-- every command: some calls without PostSave hooks, then only PostSave hooks. -/
theorem post_phase (env : Env) (opts : Opts) (c : Cmd) (h : Heap) :
    ∃ a posts r0, (run env opts c h).2.trace = a ++ posts ∧ (∀ k st, Call.postSave k st ∉ a) ∧
      (∀ x ∈ posts, ∃ k st, x = .postSave k st) ∧
      (PostPhase (c.opts opts) r0 posts (run env opts c h).1 ∨
        posts = [] ∧ (c.InitFails ∨ ∀ r, (run env opts c h).1 = some r → r.error.isSome)) := by
  rcases run_anatomy env opts c h with ⟨keys, hk, an⟩ | ⟨h1, h0⟩
  · generalize (run env opts c h).2.trace = T at an ⊢
    generalize (run env opts c h).1 = R at an ⊢
    cases an with
    | early _ _ he hres =>
      refine ⟨T, [], none, by simp, ?_, by simp, .inr ⟨rfl, .inr fun r hr => (hres r hr).1⟩⟩
      intro k st hx
      rcases he.noBody _ hx with ⟨_, _, h⟩ | ⟨_, _, h⟩ | ⟨_, _, h⟩ <;> simp at h
    | plain body un posts _ b hn hw hbody hr hpp =>
      refine ⟨((keys.insertionSort (· ≤ ·)).map fun k => Call.lock k .ok) ++ (body ++ un), posts, _, by simp, ?_, hpp.isPost, .inl hpp⟩
      intro k st hx
      rw [List.mem_append, List.mem_append] at hx
      rcases hx with hx | hx | hx
      · simp at hx
      · have := body_isBody _ _ hbody _ hx; simp [Call.IsBody] at this
      · obtain ⟨_, _, h⟩ := hr.isUnlock _ hx; simp at h
    | tx body tail un posts rt _ b hn hw hbody ht hr hpp =>
      refine ⟨((keys.insertionSort (· ≤ ·)).map fun k => Call.lock k .ok) ++ (.begin .ok :: (body ++ (tail ++ un))), posts, _,
        by simp, ?_, hpp.isPost, .inl hpp⟩
      intro k st hx
      rw [List.mem_append, List.mem_cons, List.mem_append, List.mem_append] at hx
      rcases hx with hx | hx | hx | hx | hx
      · simp at hx
      · simp at hx
      · have := body_isBody _ _ hbody _ hx; simp [Call.IsBody] at this
      · obtain ⟨x0, l, rfl, hx0, hl⟩ := ht.calls
        rcases List.mem_cons.1 hx with rfl | hx
        · simp [isEnd] at hx0
        · rcases hl _ hx with ⟨_, h⟩ | ⟨_, h⟩ | ⟨_, h⟩ | ⟨_, h⟩ <;> simp at h
      · obtain ⟨_, _, h⟩ := hr.isUnlock _ hx; simp at h
  · exact ⟨[], [], none, by simp [h0], by simp, by simp, .inr ⟨rfl, .inl h1⟩⟩

/-- **C19** PostSave hooks are the last calls of a command (so after the end of the transaction and the release of all locks), they are
called in order, engine hooks before the command's, each at most once; if the result has an error none is called; if it has no
error (and `Init` did not break) all of them are called. Missing: a command whose `Init` breaks, `C19_init_break_skips_hooks`. -/
theorem C19_hooks_partial :
    (∃ a posts, (run env opts c h).2.trace = a ++ posts ∧ (∀ k st, Call.postSave k st ∉ a) ∧ ∀ x ∈ posts, ∃ k st, x = .postSave k st) ∧
    hooksRun (run env opts c h).2.trace <+: opts.hooks ++ c.post.toList ∧
    (∀ r, (run env opts c h).1 = some r → r.error.isSome → hooksRun (run env opts c h).2.trace = []) ∧
    (¬ c.InitFails → ∀ r, (run env opts c h).1 = some r → r.error = none →
      hooksRun (run env opts c h).2.trace = opts.hooks ++ c.post.toList) := by
  obtain ⟨a, posts, r0, hT, hno, hp, hpp⟩ := post_phase env opts c h
  rw [hT, hooksRun_append, hooksRun_nil hno, List.nil_append]
  refine ⟨⟨a, posts, rfl, hno, hp⟩, ?_⟩
  rcases hpp with hpp | ⟨rfl, hres⟩
  · generalize (run env opts c h).1 = R at hpp
    cases hpp with
    | panicked => exact ⟨List.nil_prefix, by simp, by simp⟩
    | failed r hr => exact ⟨List.nil_prefix, fun _ _ _ => rfl, fun _ r' h1 h2 => by simp_all⟩
    | posted r b t h1 h2 =>
      refine ⟨h2.keys.1, ?_, ?_⟩
      · intro r' hr' he
        split at hr'
        · obtain rfl := Option.some.inj hr'; simp [h1] at he
        · simp at hr'
      · intro _ r' hr' he
        split at hr'
        · next hb => exact h2.keys.2 hb
        · simp at hr'
  · refine ⟨List.nil_prefix, fun _ _ _ => rfl, ?_⟩
    intro hni r hr he
    rcases hres with h | h
    · exact absurd h hni
    · have := h r hr; rw [he] at this; simp at this

/-! ## C21 -/

/-- **C21** With dry run no write is executed, no event is persisted and no event is dispatched. -/
theorem C21_dry_run (hd : opts.dryRun = true) :
    (∀ a st, Call.exec a st ∉ (run env opts c h).2.trace) ∧ (∀ es st, Call.dispatch es st ∉ (run env opts c h).2.trace) ∧
    (∀ es st, Call.dispatchBegin es st ∉ (run env opts c h).2.trace) := by
  have main : ∀ x ∈ (run env opts c h).2.trace, (∃ k st, x = .lock k st) ∨ (∃ st, x = .begin st) ∨ x.IsBody true ∨ isEnd x = true ∨
      (∃ st, x = .busCommit st) ∨ (∃ st, x = .busRollback st) ∨ (∃ k st, x = .unlock k st) ∨ ∃ k st, x = .postSave k st := by
    rcases run_anatomy env opts c h with ⟨keys, hk, an⟩ | ⟨h1, h0⟩
    · generalize (run env opts c h).2.trace = T at an ⊢
      generalize (run env opts c h).1 = R at an ⊢
      intro x hx
      cases an with
      | early _ _ he hres => rcases he.noBody _ hx with ⟨_, _, h⟩ | ⟨_, _, h⟩ | ⟨_, _, h⟩ <;> simp [h]
      | plain body un posts _ b hn hw hbody hr hpp =>
        have hB := body_isBody _ _ hbody
        rw [show (c.opts opts).dryRun = true from hd] at hB
        rw [List.mem_append, List.mem_append, List.mem_append] at hx
        rcases hx with hx | hx | hx | hx
        · obtain ⟨k, _, rfl⟩ := List.mem_map.1 hx; exact .inl ⟨_, _, rfl⟩
        · exact .inr (.inr (.inl (hB x hx)))
        · obtain ⟨_, _, rfl⟩ := hr.isUnlock x hx; simp
        · obtain ⟨_, _, rfl⟩ := hpp.isPost x hx; simp
      | tx body tail un posts rt _ b hn hw hbody ht hr hpp =>
        have hB := body_isBody _ _ hbody
        rw [show (c.opts opts).dryRun = true from hd] at hB
        rw [List.mem_append, List.mem_cons, List.mem_append, List.mem_append, List.mem_append] at hx
        rcases hx with hx | rfl | hx | hx | hx | hx
        · obtain ⟨k, _, rfl⟩ := List.mem_map.1 hx; exact .inl ⟨_, _, rfl⟩
        · simp
        · exact .inr (.inr (.inl (hB x hx)))
        · obtain ⟨x0, l, rfl, hx0, hl⟩ := ht.calls
          rcases List.mem_cons.1 hx with rfl | hx
          · simp [hx0]
          · rcases hl _ hx with ⟨_, h⟩ | ⟨_, h⟩ | ⟨_, h⟩ | ⟨_, h⟩ <;> simp [h, isEnd]
        · obtain ⟨_, _, rfl⟩ := hr.isUnlock x hx; simp
        · obtain ⟨_, _, rfl⟩ := hpp.isPost x hx; simp
    · rw [h0]; simp
  refine ⟨fun a st hx => ?_, fun a st hx => ?_, fun a st hx => ?_⟩ <;>
    · have := main _ hx
      simp [Call.IsBody, isEnd] at this

/-! ## C22, C23, C61: locks -/

/-- the lock keys requested, in order. -/
def lockReqs (t : Trace) : List Nat := t.filterMap fun | .lock k _ => some k | _ => none

theorem lockReqs_append (a b : Trace) : lockReqs (a ++ b) = lockReqs a ++ lockReqs b := by simp [lockReqs]

theorem lockReqs_nil {t : Trace} (h : ∀ k st, Call.lock k st ∉ t) : lockReqs t = [] := by
  unfold lockReqs
  rw [List.filterMap_eq_nil_iff]
  intro x hx
  cases x <;> simp
  exact h _ _ hx

theorem lockReqs_locks (ks : List Nat) : lockReqs (ks.map fun k => Call.lock k .ok) = ks := by
  induction ks with
  | nil => rfl
  | cons k ks ih => simp [lockReqs]

/-- every command that passes the duplicate check: requests, then the rest. `rest` holds no lock request. -/
theorem lock_phase {keys : List Nat} (hk : c.Keys keys) (hn : keys.Nodup) :
    (∃ (pre post : List Nat) (k : Nat) (st : Stat) (rest : Trace), keys.insertionSort (· ≤ ·) = pre ++ k :: post ∧ st ≠ .ok ∧
      (run env opts c h).2.trace = (pre.map fun k => .lock k .ok) ++ .lock k st :: rest ∧
      (st = .panic ∧ rest = [] ∧ (run env opts c h).1 = none ∨
        st = .err ∧ ∃ b e t, env.lock t k = .err e ∧ Released pre b rest ∧
          (run env opts c h).1 = if b then some (resultErrors (.wrap e)) else none)) ∨
    ∃ mid un posts b, (run env opts c h).2.trace = ((keys.insertionSort (· ≤ ·)).map fun k => .lock k .ok) ++ (mid ++ (un ++ posts)) ∧
      (∀ x ∈ mid, ∀ k st, x ≠ .lock k st ∧ x ≠ .unlock k st ∧ x ≠ .postSave k st) ∧
      Released (keys.insertionSort (· ≤ ·)) b un ∧ (∀ x ∈ posts, ∃ k st, x = .postSave k st) := by
  rcases run_anatomy env opts c h with ⟨keys', hk', an⟩ | ⟨h1, h0⟩
  · obtain rfl := hk.unique hk'
    generalize (run env opts c h).2.trace = T at an ⊢
    generalize (run env opts c h).1 = R at an ⊢
    cases an with
    | early _ _ he hres =>
      cases he with
      | dup hd => exact absurd hn hd
      | refused pre post k e h t b hn hs he hr => exact .inl ⟨pre, post, k, .err, t, hs, by simp, rfl, .inr ⟨rfl, b, e, h, he, hr, rfl⟩⟩
      | lockPanic pre post k hn hs => exact .inl ⟨pre, post, k, .panic, [], hs, by simp, rfl, .inl ⟨rfl, rfl, rfl⟩⟩
      | noBegin st t b _ hn hw hst hr hbr =>
        exact .inr ⟨[.begin st], t, [], b, by simp, by simp, hr, by simp⟩
    | plain body un posts _ b hn hw hbody hr hpp =>
      refine .inr ⟨body, un, posts, b, rfl, ?_, hr, hpp.isPost⟩
      intro x hx k st
      have := body_isBody _ _ hbody _ hx
      refine ⟨?_, ?_, ?_⟩ <;> rintro rfl <;> simp [Call.IsBody] at this
    | tx body tail un posts rt _ b hn hw hbody ht hr hpp =>
      refine .inr ⟨.begin .ok :: (body ++ tail), un, posts, b, by simp, ?_, hr, hpp.isPost⟩
      intro x hx k st
      rw [List.mem_cons, List.mem_append] at hx
      rcases hx with rfl | hx | hx
      · simp
      · have := body_isBody _ _ hbody _ hx
        refine ⟨?_, ?_, ?_⟩ <;> rintro rfl <;> simp [Call.IsBody] at this
      · obtain ⟨x0, l, rfl, hx0, hl⟩ := ht.calls
        rcases List.mem_cons.1 hx with rfl | hx
        · refine ⟨?_, ?_, ?_⟩ <;> rintro rfl <;> simp [isEnd] at hx0
        · rcases hl _ hx with ⟨_, rfl⟩ | ⟨_, rfl⟩ | ⟨_, rfl⟩ | ⟨_, rfl⟩ <;> simp
  · exact absurd h1 hk.not_fails

/-- **C22** Locks are requested in strictly ascending key order whatever order `Init` returned; only keys of the command are requested,
and `Main` runs only after all of them were; a repeated key fails the command before any call. -/
theorem C22_lock_order {keys : List Nat} (hk : c.Keys keys) :
    (lockReqs (run env opts c h).2.trace).Pairwise (· < ·) ∧
    (∀ k ∈ lockReqs (run env opts c h).2.trace, k ∈ keys) ∧
    (Call.mainStart ∈ (run env opts c h).2.trace → ∀ k ∈ keys, Call.lock k .ok ∈ (run env opts c h).2.trace) ∧
    (¬ keys.Nodup → (run env opts c h).2.trace = [] ∧ ∃ r, (run env opts c h).1 = some r ∧ r.error.isSome) := by
  by_cases hn : keys.Nodup
  · have hsorted := insertionSort_nodup hn
    have hperm : (keys.insertionSort (· ≤ ·)).Perm keys := List.perm_insertionSort _ _
    rcases lock_phase (env := env) (opts := opts) (h := h) hk hn with
      ⟨pre, post, k, st, rest, hs, hst, hT, hrest⟩ | ⟨mid, un, posts, b, hT, hmid, hr, hp⟩
    · have hrq : lockReqs (run env opts c h).2.trace = pre ++ [k] := by
        have : ∀ k st, Call.lock k st ∉ rest := by
          intro k st hx
          rcases hrest with ⟨_, rfl, _⟩ | ⟨_, b, e, t, _, hr, _⟩
          · simp at hx
          · obtain ⟨_, _, h⟩ := hr.isUnlock _ hx; simp at h
        rw [hT, lockReqs_append, lockReqs_locks]
        have e : lockReqs (Call.lock k st :: rest) = k :: lockReqs rest := rfl
        rw [e, lockReqs_nil this]
      have hpre : pre ++ [k] <+: keys.insertionSort (· ≤ ·) := ⟨post, by rw [hs]; simp⟩
      rw [hrq]
      refine ⟨hsorted.sublist hpre.sublist, fun k' hk' => hperm.mem_iff.1 (hpre.subset hk'), ?_, fun hd => absurd hn hd⟩
      intro hm
      rw [hT, List.mem_append, List.mem_cons] at hm
      rcases hm with hm | hm | hm
      · simp at hm
      · simp at hm
      · rcases hrest with ⟨_, rfl, _⟩ | ⟨_, b, e, t, _, hr, _⟩
        · simp at hm
        · obtain ⟨_, _, h⟩ := hr.isUnlock _ hm; simp at h
    · have hrq : lockReqs (run env opts c h).2.trace = keys.insertionSort (· ≤ ·) := by
        rw [hT, lockReqs_append, lockReqs_locks, lockReqs_nil, List.append_nil]
        intro k st hx
        rw [List.mem_append, List.mem_append] at hx
        rcases hx with hx | hx | hx
        · exact (hmid _ hx k st).1 rfl
        · obtain ⟨_, _, h⟩ := hr.isUnlock _ hx; simp at h
        · obtain ⟨_, _, h⟩ := hp _ hx; simp at h
      rw [hrq]
      refine ⟨hsorted, fun k' hk' => hperm.mem_iff.1 hk', ?_, fun hd => absurd hn hd⟩
      intro _ k hk
      rw [hT, List.mem_append]
      exact .inl (List.mem_map.2 ⟨k, hperm.mem_iff.2 hk, rfl⟩)
  · rcases run_anatomy env opts c h with ⟨keys', hk', an⟩ | ⟨h1, h0⟩
    · obtain rfl := hk.unique hk'
      generalize (run env opts c h).2.trace = T at an ⊢
      generalize (run env opts c h).1 = R at an ⊢
      cases an with
      | early _ _ he hres =>
        cases he with
        | dup hd => exact ⟨by simp [lockReqs], by simp [lockReqs], by simp, fun _ => ⟨rfl, _, rfl, rfl⟩⟩
        | refused _ _ _ _ _ _ _ hn' => exact absurd hn' hn
        | lockPanic _ _ _ hn' => exact absurd hn' hn
        | noBegin _ _ _ _ hn' => exact absurd hn' hn
      | plain _ _ _ _ _ hn' => exact absurd hn' hn
      | tx _ _ _ _ _ _ _ hn' => exact absurd hn' hn
    · exact absurd h1 hk.not_fails

/-- where a call of the middle part stands. -/
theorem split_mid {α : Type} {A M U a b : List α} {x : α} (hT : A ++ (M ++ U) = a ++ x :: b) (hA : x ∉ A) (hU : x ∉ U) :
    ∃ m1 m2, M = m1 ++ x :: m2 ∧ a = A ++ m1 ∧ b = m2 ++ U := by
  rcases List.append_eq_append_iff.1 hT with ⟨t, h1, h2⟩ | ⟨t, h1, h2⟩
  · rcases List.append_eq_append_iff.1 h2 with ⟨u, h3, h4⟩ | ⟨u, h3, h4⟩
    · exact absurd (by rw [h4]; simp) hU
    · cases u with
      | nil => exact absurd (by rw [← List.nil_append U, ← h4]; simp) hU
      | cons z u =>
        rw [List.cons_append, List.cons.injEq] at h4
        obtain ⟨rfl, rfl⟩ := h4
        exact ⟨t, u, h3, h1, rfl⟩
  · cases t with
    | nil =>
      rw [List.nil_append] at h2
      rw [List.append_nil] at h1
      cases M with
      | nil => exact absurd (by rw [← List.nil_append U, ← h2]; simp) hU
      | cons m M =>
        rw [List.cons_append, List.cons.injEq] at h2
        obtain ⟨rfl, rfl⟩ := h2
        exact ⟨[], M, rfl, by simp [h1], rfl⟩
    | cons z t =>
      rw [List.cons_append, List.cons.injEq] at h2
      obtain ⟨rfl, _⟩ := h2
      exact absurd (by rw [h1]; simp) hA

/-- **C23** (held) At every call of the command that is not itself about locks or PostSave hooks — `Begin`, `Main`, reads, writes, event
dispatch, `Commit`, `RollBack` — all its keys have been locked successfully and none has been released. -/
theorem C23_held {keys : List Nat} (hk : c.Keys keys) {a b : Trace} {x : Call} (hT : (run env opts c h).2.trace = a ++ x :: b)
    (hx : ∀ k st, x ≠ .lock k st ∧ x ≠ .unlock k st ∧ x ≠ .postSave k st) :
    (∀ k ∈ keys, Call.lock k .ok ∈ a) ∧ ∀ k st, Call.unlock k st ∉ a := by
  have hm : x ∈ (run env opts c h).2.trace := by rw [hT]; simp
  by_cases hn : keys.Nodup
  · rcases lock_phase (env := env) (opts := opts) (h := h) hk hn with
      ⟨pre, post, k, st, rest, hs, hst, hT', hrest⟩ | ⟨mid, un, posts, b', hT', hmid, hr, hp⟩
    · exfalso
      rw [hT', List.mem_append, List.mem_cons] at hm
      rcases hm with hm | hm | hm
      · obtain ⟨k', _, rfl⟩ := List.mem_map.1 hm; exact (hx k' .ok).1 rfl
      · exact (hx k st).1 hm
      · rcases hrest with ⟨_, rfl, _⟩ | ⟨_, b, e, t, _, hr, _⟩
        · simp at hm
        · obtain ⟨k, st, h⟩ := hr.isUnlock _ hm; exact (hx k st).2.1 h
    · rw [hT'] at hT
      have hperm : (keys.insertionSort (· ≤ ·)).Perm keys := List.perm_insertionSort _ _
      obtain ⟨m1, m2, rfl, rfl, rfl⟩ := split_mid hT
        (by intro h; obtain ⟨k', _, rfl⟩ := List.mem_map.1 h; exact (hx k' .ok).1 rfl)
        (by
          intro h
          rcases List.mem_append.1 h with h | h
          · obtain ⟨k, st, h⟩ := hr.isUnlock _ h; exact (hx k st).2.1 h
          · obtain ⟨k, st, h⟩ := hp _ h; exact (hx k st).2.2 h)
      refine ⟨fun k hk => List.mem_append_left _ (List.mem_map.2 ⟨k, hperm.mem_iff.2 hk, rfl⟩), fun k st h => ?_⟩
      rcases List.mem_append.1 h with h | h
      · simp at h
      · exact (hmid _ (List.mem_append_left _ h) k st).2.1 rfl
  · rw [((C22_lock_order hk).2.2.2 hn).1] at hm; simp at hm

/-- **C23** (not obtained) If a lock cannot be obtained then no transaction is begun, no user code runs, and the command fails. -/
theorem C23_refused {k : Nat} {st : Stat} (hm : Call.lock k st ∈ (run env opts c h).2.trace) (hst : st ≠ .ok) :
    Call.mainStart ∉ (run env opts c h).2.trace ∧ (∀ st, Call.begin st ∉ (run env opts c h).2.trace) ∧
    ∀ r, (run env opts c h).1 = some r → r.error.isSome := by
  rcases run_anatomy env opts c h with ⟨keys, hk, an⟩ | ⟨h1, h0⟩
  · clear an
    by_cases hn : keys.Nodup
    · rcases lock_phase (env := env) (opts := opts) (h := h) hk hn with
        ⟨pre, post, k, st, rest, hs, hst, hT', hrest⟩ | ⟨mid, un, posts, b', hT', hmid, hr, hp⟩
      · have hall : ∀ x ∈ (run env opts c h).2.trace, (∃ k st, x = .lock k st) ∨ ∃ k st, x = .unlock k st := by
          intro x hm
          rw [hT', List.mem_append, List.mem_cons] at hm
          rcases hm with hm | hm | hm
          · obtain ⟨k', _, rfl⟩ := List.mem_map.1 hm; exact .inl ⟨_, _, rfl⟩
          · exact .inl ⟨_, _, hm⟩
          · rcases hrest with ⟨_, rfl, _⟩ | ⟨_, b, e, t, _, hr, _⟩
            · simp at hm
            · exact .inr (hr.isUnlock _ hm)
        refine ⟨fun hx => ?_, fun st hx => ?_, ?_⟩
        · rcases hall _ hx with ⟨_, _, h⟩ | ⟨_, _, h⟩ <;> simp at h
        · rcases hall _ hx with ⟨_, _, h⟩ | ⟨_, _, h⟩ <;> simp at h
        · intro r hr
          rcases hrest with ⟨_, _, h⟩ | ⟨_, b, e, t, _, _, h⟩
          · rw [hr] at h; simp at h
          · rw [hr] at h
            split at h
            · rw [Option.some.injEq] at h; rw [h]; rfl
            · simp at h
      · exfalso
        rw [hT', List.mem_append, List.mem_append, List.mem_append] at hm
        rcases hm with hm | hm | hm | hm
        · simp only [List.mem_map, Call.lock.injEq] at hm
          obtain ⟨_, _, _, h⟩ := hm
          exact hst h.symm
        · exact (hmid _ hm k st).1 rfl
        · obtain ⟨k, st, h⟩ := hr.isUnlock _ hm; simp at h
        · obtain ⟨k, st, h⟩ := hp _ hm; simp at h
    · rw [((C22_lock_order hk).2.2.2 hn).1] at hm; simp at hm
  · rw [h0] at hm; simp at hm

/-- the keys released, in order. -/
def unlockReqs (t : Trace) : List Nat := t.filterMap fun | .unlock k _ => some k | _ => none

theorem unlockReqs_append (a b : Trace) : unlockReqs (a ++ b) = unlockReqs a ++ unlockReqs b := by simp [unlockReqs]

theorem unlockReqs_nil {t : Trace} (h : ∀ k st, Call.unlock k st ∉ t) : unlockReqs t = [] := by
  unfold unlockReqs
  rw [List.filterMap_eq_nil_iff]
  intro x hx
  cases x <;> simp
  exact h _ _ hx

theorem Released.keys {ks : List Nat} {b : Bool} {t : Trace} (h : Released ks b t) (hp : ∀ k, Call.unlock k .panic ∉ t) :
    unlockReqs t = ks := by
  induction h with
  | nil => rfl
  | cons k ks st b t hst hr ih =>
    have : unlockReqs (Call.unlock k st :: t) = k :: unlockReqs t := rfl
    rw [this, ih fun k hk => hp k (List.mem_cons_of_mem _ hk)]
  | panic k ks => exact absurd (by simp) (hp k)

/-- the keys obtained, in order. -/
def lockedKeys (t : Trace) : List Nat := t.filterMap fun | .lock k .ok => some k | _ => none

theorem lockedKeys_append (a b : Trace) : lockedKeys (a ++ b) = lockedKeys a ++ lockedKeys b := by simp [lockedKeys]
theorem lockedKeys_nil {t : Trace} (h : ∀ k, Call.lock k .ok ∉ t) : lockedKeys t = [] := by
  unfold lockedKeys
  rw [List.filterMap_eq_nil_iff]
  intro x hx
  cases x with
  | lock k st => cases st <;> simp; exact h _ hx
  | _ => simp
theorem lockedKeys_locks (ks : List Nat) : lockedKeys (ks.map fun k => Call.lock k .ok) = ks := by
  induction ks with
  | nil => rfl
  | cons k ks ih => simp [lockedKeys] at ih ⊢

/-- **C23** (released) Unless `Lock` or `UnLock` itself panics, every lock obtained is released exactly once, nothing else is released,
and the releases are the last calls before the PostSave hooks. Missing: `C23_lock_panic_leaks`, `C23_unlock_panic_leaks`. -/
theorem C23_released_partial (hp : ∀ k, Call.lock k .panic ∉ (run env opts c h).2.trace ∧ Call.unlock k .panic ∉ (run env opts c h).2.trace) :
    unlockReqs (run env opts c h).2.trace = lockedKeys (run env opts c h).2.trace ∧
    (lockedKeys (run env opts c h).2.trace).Nodup ∧
    ∃ a un posts, (run env opts c h).2.trace = a ++ (un ++ posts) ∧ (∀ k st, Call.unlock k st ∉ a) ∧ (∀ x ∈ un, ∃ k st, x = .unlock k st) ∧
      ∀ x ∈ posts, ∃ k st, x = .postSave k st := by
  rcases run_anatomy env opts c h with ⟨keys, hk, an⟩ | ⟨h1, h0⟩
  · clear an
    by_cases hn : keys.Nodup
    · have hsn : (keys.insertionSort (· ≤ ·)).Nodup := (List.perm_insertionSort _ _).nodup_iff.2 hn
      rcases lock_phase (env := env) (opts := opts) (h := h) hk hn with
        ⟨pre, post, k, st, rest, hs, hst, hT, hrest⟩ | ⟨mid, un, posts, b', hT, hmid, hr, hpo⟩
      · rcases hrest with ⟨rfl, rfl, _⟩ | ⟨rfl, b, e, t, _, hr, _⟩
        · exact absurd (by rw [hT]; simp) (hp k).1
        · have hu := hr.keys (fun k hk => (hp k).2 (by rw [hT]; simp [hk]))
          have e1 : unlockReqs (run env opts c h).2.trace = pre := by
            rw [hT, unlockReqs_append, unlockReqs_nil (by simp)]
            exact hu
          have e2 : lockedKeys (run env opts c h).2.trace = pre := by
            rw [hT, lockedKeys_append, lockedKeys_locks]
            have : lockedKeys (Call.lock k .err :: rest) = lockedKeys rest := rfl
            rw [this, lockedKeys_nil, List.append_nil]
            intro k hx; obtain ⟨_, _, h⟩ := hr.isUnlock _ hx; simp at h
          rw [e1, e2]
          refine ⟨rfl, ?_, (pre.map fun k => .lock k .ok) ++ [.lock k .err], rest, [], by rw [hT]; simp, by simp, hr.isUnlock, by simp⟩
          rw [hs] at hsn
          exact hsn.sublist (List.sublist_append_left _ _)
      · have hu := hr.keys (fun k hk => (hp k).2 (by rw [hT]; simp [hk]))
        have hno : ∀ k st, Call.unlock k st ∉ ((keys.insertionSort (· ≤ ·)).map fun k => Call.lock k .ok) ++ mid := by
          intro k st hx
          rcases List.mem_append.1 hx with hx | hx
          · simp at hx
          · exact (hmid _ hx k st).2.1 rfl
        have e1 : unlockReqs (run env opts c h).2.trace = keys.insertionSort (· ≤ ·) := by
          rw [hT, ← List.append_assoc, unlockReqs_append, unlockReqs_nil hno, unlockReqs_append, hu, unlockReqs_nil (t := posts)]
          · simp
          · intro k st hx; obtain ⟨_, _, h⟩ := hpo _ hx; simp at h
        have e2 : lockedKeys (run env opts c h).2.trace = keys.insertionSort (· ≤ ·) := by
          rw [hT, lockedKeys_append, lockedKeys_locks, lockedKeys_nil, List.append_nil]
          intro k hx
          rw [List.mem_append, List.mem_append] at hx
          rcases hx with hx | hx | hx
          · exact (hmid _ hx k .ok).1 rfl
          · obtain ⟨_, _, h⟩ := hr.isUnlock _ hx; simp at h
          · obtain ⟨_, _, h⟩ := hpo _ hx; simp at h
        rw [e1, e2]
        exact ⟨rfl, hsn, _, un, posts, by rw [hT, List.append_assoc], hno, hr.isUnlock, hpo⟩
    · rw [((C22_lock_order hk).2.2.2 hn).1]
      exact ⟨rfl, List.nodup_nil, [], [], [], by simp⟩
  · rw [h0]
    exact ⟨rfl, List.nodup_nil, [], [], [], by simp⟩

/-- **C61** is false of the code: whenever a lock is refused, for whatever reason, the error of the result is not recognised by
`errors.Is(·, ErrEntityLocked)`. -/
theorem C61_contention_never_recognisable {k : Nat} (hm : Call.lock k .err ∈ (run env opts c h).2.trace) :
    ∀ r, (run env opts c h).1 = some r → ∃ e, r.error = some e ∧ ¬ Carries .locked e := by
  rcases run_anatomy env opts c h with ⟨keys, hk, an⟩ | ⟨h1, h0⟩
  · clear an
    by_cases hn : keys.Nodup
    · rcases lock_phase (env := env) (opts := opts) (h := h) hk hn with
        ⟨pre, post, k, st, rest, hs, hst, hT, hrest⟩ | ⟨mid, un, posts, b', hT, hmid, hr, hpo⟩
      · intro r hr
        rcases hrest with ⟨_, _, h⟩ | ⟨_, b, e, t, _, _, h⟩
        · rw [hr] at h; simp at h
        · rw [hr] at h
          split at h
          · rw [Option.some.injEq] at h; rw [h]; exact ⟨_, rfl, by rw [← is_iff]; simp [Err.is]⟩
          · simp at h
      · exfalso
        rw [hT, List.mem_append, List.mem_append, List.mem_append] at hm
        rcases hm with hm | hm | hm | hm
        · simp at hm
        · exact (hmid _ hm k .err).1 rfl
        · obtain ⟨k, st, h⟩ := hr.isUnlock _ hm; simp at h
        · obtain ⟨k, st, h⟩ := hpo _ hm; simp at h
    · rw [((C22_lock_order hk).2.2.2 hn).1] at hm; simp at hm
  · rw [h0] at hm; simp at hm

end Ddd
