import Verif.Proofs.Anatomy
import Verif.Props.Demo
/-!
# C14–C19, C21: transactions, break, PostSave hooks, dry run

All theorems are about `run env opts c h` (`Engine.Run` of one command on a fresh stage): every environment, every option set, every
command `c` (with or without `Init`, `PostSave`; `Main` is an arbitrary interaction tree), every initial heap.
`(run env opts c h).2.trace` is the list of all external calls made, `(run env opts c h).1` the result (`none`: it panicked).
-/
set_option linter.unusedVariables false
set_option linter.unusedSimpArgs false
set_option linter.unusedTactic false
namespace Ddd
open Spec

variable {env : Env} {opts : Opts} {c : Cmd} {h : Heap}

theorem run_anatomy (env : Env) (opts : Opts) (c : Cmd) (h : Heap) :
    (∃ keys, c.Keys keys ∧ Anatomy env (c.opts opts) keys c.main (.fresh h) (run env opts c h).2.trace (run env opts c h).1) ∨
    (c.InitFails ∧ (run env opts c h).2.trace = []) := by
  unfold run
  cases hi : c.init with
  | none => exact .inl ⟨[], .inl ⟨hi, rfl⟩, save_anatomy env (c.opts opts) [] c.main (.fresh h) rfl⟩
  | some r =>
    cases r with
    | ok keys => exact .inl ⟨keys, .inr hi, save_anatomy env (c.opts opts) keys c.main (.fresh h) rfl⟩
    | err e => exact .inr ⟨.inl ⟨e, hi⟩, rfl⟩
    | panic => exact .inr ⟨.inr hi, rfl⟩

theorem ends_append (a b : Trace) : ends (a ++ b) = ends a ++ ends b := by simp [ends]
theorem ends_nil_of {t : Trace} (h : ∀ c ∈ t, isEnd c = false) : ends t = [] := by
  unfold ends; rw [List.filter_eq_nil_iff]; intro c hc; rw [h c hc]; simp

theorem isEnd_commit (st) : isEnd (.commit st) = true := rfl
theorem isEnd_rollback (st) : isEnd (.rollback st) = true := rfl
theorem isEnd_busCommit (st) : isEnd (.busCommit st) = false := rfl
theorem isEnd_busRollback (st) : isEnd (.busRollback st) = false := rfl

theorem isBody_not_end {dry : Bool} {c : Call} (h : c.IsBody dry) : isEnd c = false := by
  cases c <;> simp_all [Call.IsBody, isEnd]

/-- calls around the transaction. -/
theorem locks_not_end (ks : List Nat) : ∀ c ∈ (ks.map fun k => Call.lock k .ok), isEnd c = false := by
  intro c hc; obtain ⟨k, _, rfl⟩ := List.mem_map.1 hc; rfl

theorem doStage_body (main : Prog) (s : St) {body : Trace}
    (h : (doStage env opts main s).2.trace = s.trace ++ body) : ∃ d : DoShape env opts main s (doStage env opts main s),
      body = .mainStart :: d.tm ++ .mainRet d.st :: (d.tsave ++ (d.tpers ++ d.tsend)) := by
  obtain ⟨d⟩ := doStage_shape env opts main s
  refine ⟨d, ?_⟩
  have := d.eq
  rw [h] at this
  exact List.append_cancel_left this

theorem body_isBody (main : Prog) (s : St) {body : Trace}
    (h : (doStage env opts main s).2.trace = s.trace ++ body) : ∀ c ∈ body, c.IsBody opts.dryRun := by
  obtain ⟨d, rfl⟩ := doStage_body main s h
  exact d.isBody

/-- facts about the calls around the body. -/
theorem outer_ends {keys : List Nat} {body un posts : Trace} {b : Bool} {r r' : Option Result} {main : Prog} {s : St}
    (hbody : (doStage env opts main s).2.trace = s.trace ++ body) (hr : Released (keys.insertionSort (· ≤ ·)) b un)
    (hpp : PostPhase opts r posts r') :
    ends body = [] ∧ ends un = [] ∧ ends posts = [] ∧
      ends ((keys.insertionSort (· ≤ ·)).map fun k => Call.lock k .ok) = [] ∧
      Call.begin .ok ∉ body ++ (un ++ posts) ∧
      Call.begin .ok ∉ ((keys.insertionSort (· ≤ ·)).map fun k => Call.lock k .ok) := by
  have hB := body_isBody _ _ hbody
  refine ⟨ends_nil_of fun c hc => isBody_not_end (hB c hc), ends_nil_of fun c hc => ?_, ends_nil_of fun c hc => ?_,
    ends_nil_of (locks_not_end _), ?_, by simp⟩
  · obtain ⟨_, _, rfl⟩ := hr.isUnlock c hc; rfl
  · obtain ⟨_, _, rfl⟩ := hpp.isPost c hc; rfl
  · intro h
    simp only [List.mem_append] at h
    rcases h with h | h | h
    · have := hB _ h; simp [Call.IsBody] at this
    · obtain ⟨_, _, h⟩ := hr.isUnlock _ h; simp at h
    · obtain ⟨_, _, h⟩ := hpp.isPost _ h; simp at h

/-- a transaction was begun: the command has the shape locks, begin, body, end, unlocks, hooks. -/
theorem begun_cases (env : Env) (opts : Opts) (c : Cmd) (h : Heap) :
    (Call.begin .ok ∉ (run env opts c h).2.trace ∧ ends (run env opts c h).2.trace = []) ∨
    ∃ keys body tail un posts rt b, c.Keys keys ∧ keys.Nodup ∧ (c.opts opts).withTransaction = true ∧
      (doStage env (c.opts opts) c.main (atMain (c.opts opts) keys (.fresh h))).2.trace =
        (atMain (c.opts opts) keys (.fresh h)).trace ++ body ∧
      TxTail env (busPending (c.opts opts) (doStage env (c.opts opts) c.main (atMain (c.opts opts) keys (.fresh h))).2)
        (doStage env (c.opts opts) c.main (atMain (c.opts opts) keys (.fresh h))).1 tail rt ∧
      Released (keys.insertionSort (· ≤ ·)) b un ∧ PostPhase (c.opts opts) (if b then rt else none) posts (run env opts c h).1 ∧
      (run env opts c h).2.trace = ((keys.insertionSort (· ≤ ·)).map fun k => Call.lock k .ok) ++
        (.begin .ok :: (body ++ (tail ++ (un ++ posts)))) := by
  rcases run_anatomy env opts c h with ⟨keys, hk, an⟩ | ⟨_, h0⟩
  · generalize (run env opts c h).2.trace = T at an ⊢
    generalize (run env opts c h).1 = R at an ⊢
    cases an with
    | early _ _ he hr =>
      left
      have hno := he.noBody
      constructor
      · intro hb
        rcases hno _ hb with ⟨_, _, h⟩ | ⟨_, _, h⟩ | ⟨st, h1, h⟩
        · simp at h
        · simp at h
        · simp only [Call.begin.injEq] at h; exact absurd h.symm h1
      · apply ends_nil_of
        intro c hc
        rcases hno c hc with ⟨_, _, rfl⟩ | ⟨_, _, rfl⟩ | ⟨st, h1, rfl⟩ <;> rfl
    | plain body un posts _ b hn hw hbody hr hpp =>
      left
      obtain ⟨e1, e2, e3, e4, e5, e6⟩ := outer_ends hbody hr hpp
      refine ⟨?_, by simp [ends_append, e1, e2, e3, e4]⟩
      rw [List.mem_append, not_or]; exact ⟨e6, e5⟩
    | tx body tail un posts rt _ b hn hw hbody ht hr hpp =>
      exact .inr ⟨keys, body, tail, un, posts, rt, b, hk, hn, hw, hbody, ht, hr, hpp, rfl⟩
  · left; rw [h0]; simp [ends]

/-- **C14** Every begun transaction is ended exactly once, none is ended that was not begun — provided the calls that end
transactions do not themselves panic. Missing: see `C14_commit_panic_ends_twice`. -/
theorem C14_ended_once_partial (hp : ∀ x ∈ (run env opts c h).2.trace, ¬ EndPanics x) :
    (Call.begin .ok ∈ (run env opts c h).2.trace →
      ∃ a b, (run env opts c h).2.trace = a ++ .begin .ok :: b ∧ ends a = [] ∧ ∃ x, ends b = [x]) ∧
    (Call.begin .ok ∉ (run env opts c h).2.trace → ends (run env opts c h).2.trace = []) := by
  rcases begun_cases env opts c h with ⟨h1, h2⟩ | ⟨keys, body, tail, un, posts, rt, b, hk, hn, hw, hbody, ht, hr, hpp, hT⟩
  · exact ⟨fun h => absurd h h1, fun _ => h2⟩
  · obtain ⟨e1, e2, e3, e4, e5, e6⟩ := outer_ends hbody hr hpp
    refine ⟨fun _ => ⟨_, _, hT, e4, ?_⟩, fun hno => absurd (by rw [hT]; simp) hno⟩
    have hp' : ∀ x ∈ tail, ¬ EndPanics x := fun x hx => hp x (by rw [hT]; simp [hx])
    simp only [ends_append, e1, e2, e3, List.nil_append, List.append_nil]
    clear hbody hT hpp hp
    generalize doStage env (c.opts opts) c.main (atMain (c.opts opts) keys (.fresh h)) = o at ht
    obtain ⟨o1, o2⟩ := o
    cases ht <;> first
      | exact ⟨_, rfl⟩
      | (refine absurd trivial (hp' (.commit .panic) ?_); simp; done)
      | (refine absurd trivial (hp' (.rollback .panic) ?_); simp; done)
      | (refine absurd trivial (hp' (.busCommit .panic) ?_); simp; done)
      | (refine absurd trivial (hp' (.busRollback .panic) ?_); simp; done)

/-- **C14** without any assumption on panics: a begun transaction is always ended, it is committed at most
once, never after a rollback, and nothing is ended before it is begun. -/
theorem C14_always_ended :
    (Call.begin .ok ∈ (run env opts c h).2.trace →
      ∃ a b, (run env opts c h).2.trace = a ++ .begin .ok :: b ∧ ends a = [] ∧ ends b ≠ [] ∧
        ∀ x ∈ (ends b).tail, ∃ st, x = .rollback st) ∧
    (Call.begin .ok ∉ (run env opts c h).2.trace → ends (run env opts c h).2.trace = []) := by
  rcases begun_cases env opts c h with ⟨h1, h2⟩ | ⟨keys, body, tail, un, posts, rt, b, hk, hn, hw, hbody, ht, hr, hpp, hT⟩
  · exact ⟨fun h => absurd h h1, fun _ => h2⟩
  · obtain ⟨e1, e2, e3, e4, e5, e6⟩ := outer_ends hbody hr hpp
    refine ⟨fun _ => ⟨_, _, hT, e4, ?_⟩, fun hno => absurd (by rw [hT]; simp) hno⟩
    simp only [ends_append, e1, e2, e3, List.nil_append, List.append_nil]
    clear hbody hT hpp
    generalize doStage env (c.opts opts) c.main (atMain (c.opts opts) keys (.fresh h)) = o at ht
    obtain ⟨o1, o2⟩ := o
    cases ht <;> refine ⟨by simp [ends, isEnd_commit, isEnd_rollback], ?_⟩ <;> intro x hx <;>
      first
      | exact absurd hx (List.not_mem_nil (a := x))
      | (obtain rfl := List.mem_singleton.1 (show x ∈ [_] from hx); exact ⟨_, rfl⟩)


theorem mem_ends {x : Call} {t : Trace} : x ∈ ends t ↔ x ∈ t ∧ isEnd x = true := by simp [ends]

theorem commit_in_tail {keys : List Nat} {body tail un posts : Trace} {st : Stat}
    (e1 : ends body = []) (e2 : ends un = []) (e3 : ends posts = [])
    (hm : Call.commit st ∈ ((keys.insertionSort (· ≤ ·)).map fun k => Call.lock k .ok) ++
        (.begin .ok :: (body ++ (tail ++ (un ++ posts))))) : Call.commit st ∈ tail := by
  have hz : ∀ t, ends t = [] → Call.commit st ∉ t := by
    intro t ht hm
    have : Call.commit st ∈ ends t := mem_ends.2 ⟨hm, rfl⟩
    rw [ht] at this; simp at this
  simp only [List.mem_append, List.mem_cons, List.mem_map] at hm
  rcases hm with ⟨_, _, h⟩ | h | h | h | h | h
  · simp at h
  · simp at h
  · exact absurd h (hz _ e1)
  · exact h
  · exact absurd h (hz _ e2)
  · exact absurd h (hz _ e3)

/-- **C15** (commit only after success) If `Commit` is issued, then `Main` was run inside the transaction and returned nil, it left no
recorded repository misuse, and every call made after `Main` returned — hooks, IDs, conversions, writes, event persistence, event
dispatch — succeeded (conversion of an unregistered type counts as success); `Commit` directly follows them. -/
theorem C15_commit_only_after_success {st : Stat} (hc : Call.commit st ∈ (run env opts c h).2.trace) :
    ∃ keys pre tm fin post, c.Keys keys ∧
      (run env opts c h).2.trace = pre ++ .begin .ok :: .mainStart :: (tm ++ .mainRet .ok :: (fin ++ .commit st :: post)) ∧
      (∀ x ∈ pre, ∃ k, x = .lock k .ok) ∧ (∀ x ∈ tm, x.IsMain opts.dryRun) ∧ (∀ x ∈ fin, x.IsBody opts.dryRun) ∧ (∀ x ∈ fin, x.Good) ∧
      (callMain env (c.opts opts) c.main (atMain (c.opts opts) keys (.fresh h))).2.errs = [] := by
  rcases begun_cases env opts c h with ⟨h1, h2⟩ | ⟨keys, body, tail, un, posts, rt, b, hk, hn, hw, hbody, ht, hr, hpp, hT⟩
  · have : Call.commit st ∈ ends (run env opts c h).2.trace := mem_ends.2 ⟨hc, rfl⟩
    rw [h2] at this; simp at this
  · obtain ⟨e1, e2, e3, e4, e5, e6⟩ := outer_ends hbody hr hpp
    obtain ⟨d, rfl⟩ := doStage_body _ _ hbody
    rw [hT] at hc
    have hm := commit_in_tail e1 e2 e3 hc
    obtain ⟨tail', htail⟩ : ∃ tail', tail = .commit st :: tail' := by
      clear hbody hT hc hpp
      generalize (doStage env (c.opts opts) c.main (atMain (c.opts opts) keys (.fresh h))).1 = o at ht
      cases ht <;> simp_all
    have hclean : ∃ r, (doStage env (c.opts opts) c.main (atMain (c.opts opts) keys (.fresh h))).1 = some r ∧ r.clean := by
      subst htail
      generalize (doStage env (c.opts opts) c.main (atMain (c.opts opts) keys (.fresh h))).1 = o at ht
      cases ht <;> exact ⟨_, rfl, by assumption⟩
    obtain ⟨r, hr1, hr2⟩ := hclean
    obtain ⟨g1, g2, g3⟩ := d.clean r hr1 hr2
    refine ⟨keys, (keys.insertionSort (· ≤ ·)).map fun k => Call.lock k .ok, d.tm, d.tsave ++ (d.tpers ++ d.tsend),
      tail' ++ (un ++ posts), hk, ?_, ?_, d.mainCalls, ?_, g3, g2⟩
    · rw [hT, htail, g1]; simp
    · intro x hx; obtain ⟨k, _, rfl⟩ := List.mem_map.1 hx; exact ⟨k, rfl⟩
    · intro x hx; exact d.isBody x (List.mem_append_right _ (List.mem_cons_of_mem _ hx))

/-- **C15** (otherwise rolled back) If the transaction was begun and `Commit` is never issued, then `RollBack` is issued, the command ends
with an error, a break or a panic, and there is a cause: `Main` did not return nil, a repository misuse was recorded, a call
of the final save or of the event handling failed, the aggregate holds an entity changed in two places, an update is due for an
entity without snapshot (see C11), or there are events but no event bus. -/
theorem C15_otherwise_rolled_back (hb : Call.begin .ok ∈ (run env opts c h).2.trace)
    (hc : ∀ st, Call.commit st ∉ (run env opts c h).2.trace) :
    (∃ st, Call.rollback st ∈ (run env opts c h).2.trace) ∧
    (∀ r, (run env opts c h).1 = some r → r.error.isSome ∨ r.brk = true) ∧
    ∃ keys a fin post mst, c.Keys keys ∧ (run env opts c h).2.trace = a ++ .mainRet mst :: (fin ++ post) ∧
      (∀ x ∈ fin, x.IsBody opts.dryRun) ∧
      let m := callMain env (c.opts opts) c.main (atMain (c.opts opts) keys (.fresh h))
      (mst ≠ .ok ∨ m.2.errs ≠ [] ∨ (∃ x ∈ fin, ¬ x.Good) ∨ entityChanges env (c.opts opts) m.2 = none ∨
        (∃ cs, entityChanges env (c.opts opts) m.2 = some cs ∧ Untracked cs m.2.snap) ∨
        (opts.bus = .nil ∧ ∃ s2, persist env (c.opts opts) m.2 = (.ok (), s2) ∧ collectEvents env s2 ≠ [])) := by
  rcases begun_cases env opts c h with ⟨h1, h2⟩ | ⟨keys, body, tail, un, posts, rt, b, hk, hn, hw, hbody, ht, hr, hpp, hT⟩
  · exact absurd hb h1
  · obtain ⟨d, rfl⟩ := doStage_body _ _ hbody
    have hnc : ∀ st, Call.commit st ∉ tail := by
      intro st hm; apply hc st; rw [hT]; simp [hm]
    have hun : (∀ r, (doStage env (c.opts opts) c.main (atMain (c.opts opts) keys (.fresh h))).1 = some r → ¬ r.clean) ∧
        (∃ st, Call.rollback st ∈ tail) ∧ ∀ r, rt = some r → ¬ r.clean := by
      generalize (doStage env (c.opts opts) c.main (atMain (c.opts opts) keys (.fresh h))).1 = o at ht
      cases ht with
      | panicked st => exact ⟨by simp, ⟨st, by simp⟩, by simp⟩
      | undone r st hcl h2 h3 => exact ⟨by simpa using hcl, ⟨st, by simp⟩, by simpa using hcl⟩
      | undonePanic r st hcl => exact ⟨by simpa using hcl, ⟨st, by simp⟩, by simp⟩
      | undoneBus r st b hcl h2 h3 h4 => exact ⟨by simpa using hcl, ⟨st, by simp⟩, by simpa using hcl⟩
      | undoneBusPanic r st c hcl h2 h3 => exact ⟨by simpa using hcl, ⟨st, by simp⟩, by simp⟩
      | commitPanic r c hcl => exact absurd (by simp) (hnc .panic)
      | commitErr r e h' hcl he => exact absurd (by simp) (hnc .err)
      | committed r hcl h2 => exact absurd (by simp) (hnc .ok)
      | committedBus r b hcl h2 h3 => exact absurd (by simp) (hnc .ok)
      | committedBusPanic r c hcl h2 => exact absurd (by simp) (hnc .ok)
    obtain ⟨hu1, ⟨st, hu2⟩, hu3⟩ := hun
    refine ⟨⟨st, by rw [hT]; simp [hu2]⟩, ?_, keys,
      ((keys.insertionSort (· ≤ ·)).map fun k => Call.lock k .ok) ++ .begin .ok :: .mainStart :: d.tm, d.tsave ++ (d.tpers ++ d.tsend), tail ++ (un ++ posts), d.st, hk, ?_, ?_, ?_⟩
    · intro r hr
      rw [hr] at hpp
      have : ¬ r.clean := by
        generalize hq : (if b = true then rt else none) = q at hpp
        have hq' : ∀ x, q = some x → ¬ x.clean := by
          intro x hx; rw [hx] at hq; split at hq
          · exact hu3 x hq
          · simp at hq
        generalize hR : some r = R at hpp
        cases hpp with
        | panicked => simp at hR
        | failed r' h' => rw [Option.some.injEq] at hR; exact hR ▸ hq' r' rfl
        | posted r' b' t h1 h2 =>
          split at hR
          · rw [Option.some.injEq] at hR; exact hR ▸ hq' r' rfl
          · simp at hR
      have := (not_clean_iff r).2 this
      simpa using this
    · rw [hT]
      have : ∀ (A : Trace), A ++ Call.begin Stat.ok :: ((Call.mainStart :: d.tm ++ Call.mainRet d.st :: (d.tsave ++ (d.tpers ++ d.tsend))) ++
          (tail ++ (un ++ posts))) = (A ++ .begin .ok :: .mainStart :: d.tm) ++ .mainRet d.st :: ((d.tsave ++ (d.tpers ++ d.tsend)) ++
          (tail ++ (un ++ posts))) := by intro A; simp
      exact this _
    · intro x hx; exact d.isBody x (List.mem_append_right _ (List.mem_cons_of_mem _ hx))
    · exact d.cause hu1

/-- **C17** If `Commit` fails, the result carries its error, no PostSave hook runs, and nothing is committed or rolled back on the bus. -/
theorem C17_failed_commit (hc : Call.commit .err ∈ (run env opts c h).2.trace) :
    (∃ t e, env.commit t = .err e ∧ ∀ r, (run env opts c h).1 = some r → r.error = some e) ∧
    (∀ k st, Call.postSave k st ∉ (run env opts c h).2.trace) ∧
    (∀ st, Call.busCommit st ∉ (run env opts c h).2.trace) ∧ (∀ st, Call.busRollback st ∉ (run env opts c h).2.trace) := by
  rcases begun_cases env opts c h with ⟨h1, h2⟩ | ⟨keys, body, tail, un, posts, rt, b, hk, hn, hw, hbody, ht, hr, hpp, hT⟩
  · have : Call.commit .err ∈ ends (run env opts c h).2.trace := mem_ends.2 ⟨hc, rfl⟩
    rw [h2] at this; simp at this
  · obtain ⟨e1, e2, e3, e4, e5, e6⟩ := outer_ends hbody hr hpp
    have hB := body_isBody _ _ hbody
    rw [hT] at hc
    have hm := commit_in_tail e1 e2 e3 hc
    have hct : ∃ (r0 : Result) (e : Err) (t0 : Trace), env.commit t0 = .err e ∧ tail = [.commit .err] ∧ rt = some { r0 with error := some e } := by
      generalize (doStage env (c.opts opts) c.main (atMain (c.opts opts) keys (.fresh h))).1 = o at ht
      cases ht with
      | commitErr r e h' hcl he => exact ⟨r, e, h', he, rfl, rfl⟩
      | _ => simp at hm
    obtain ⟨r0, e, t0, he, rfl, rfl⟩ := hct
    have hpo : posts = [] ∧ ∀ r, (run env opts c h).1 = some r → r.error = some e := by
      generalize (run env opts c h).1 = R at hpp ⊢
      cases b with
      | false => simp only [Bool.false_eq_true, if_false] at hpp; cases hpp; simp
      | true =>
        simp only [if_true] at hpp
        cases hpp with
        | failed r' h' => exact ⟨rfl, by intro r hr; rw [Option.some.injEq] at hr; exact hr ▸ rfl⟩
        | posted r' b' t h1 h2 => simp at h1
    obtain ⟨rfl, hres⟩ := hpo
    have hno : ∀ x ∈ (run env opts c h).2.trace, (∃ k st, x = .lock k st) ∨ x = .begin .ok ∨ x.IsBody opts.dryRun ∨ x = .commit .err ∨
        ∃ k st, x = .unlock k st := by
      intro x hx
      rw [hT] at hx
      simp only [List.mem_append, List.mem_cons, List.mem_map, List.not_mem_nil, or_false] at hx
      rcases hx with ⟨k, _, rfl⟩ | rfl | h | rfl | h
      · exact .inl ⟨_, _, rfl⟩
      · exact .inr (.inl rfl)
      · exact .inr (.inr (.inl (hB _ h)))
      · exact .inr (.inr (.inr (.inl rfl)))
      · exact .inr (.inr (.inr (.inr (hr.isUnlock _ h))))
    refine ⟨⟨t0, e, he, hres⟩, ?_, ?_, ?_⟩
    · intro k st hx
      rcases hno _ hx with ⟨_, _, h⟩ | h | h | h | ⟨_, _, h⟩ <;> simp [Call.IsBody] at h
    · intro st hx
      rcases hno _ hx with ⟨_, _, h⟩ | h | h | h | ⟨_, _, h⟩ <;> simp [Call.IsBody] at h
    · intro st hx
      rcases hno _ hx with ⟨_, _, h⟩ | h | h | h | ⟨_, _, h⟩ <;> simp [Call.IsBody] at h

end Ddd
