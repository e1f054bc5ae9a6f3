import Verif.Props.Events
import Verif.Props.CommandDemo
/-!
# C31–C33: events and the database transaction
-/
set_option linter.unusedVariables false
set_option linter.unusedSimpArgs false
set_option linter.unusedTactic false
namespace Ddd
open Spec

variable {env : Env} {opts : Opts} {c : Cmd} {h : Heap}

/-- every call is before, in or after the transaction's end. -/
theorem BodyOf.inTail (B : BodyOf env opts c h) {a b : Trace} {x : Call} (hT : (run env opts c h).2.trace = a ++ x :: b)
    (hx : (∃ st, x = .commit st) ∨ (∃ st, x = .rollback st) ∨ (∃ st, x = .busCommit st) ∨ ∃ st, x = .busRollback st) :
    ∃ m1 m2, B.tail = m1 ++ x :: m2 ∧
      a = B.pre ++ (.mainStart :: B.d.tm ++ .mainRet B.d.st :: (B.d.tsave ++ (B.d.tpers ++ B.d.tsend))) ++ m1 ∧ b = m2 ++ B.post := by
  have hsplit : (B.pre ++ (.mainStart :: B.d.tm ++ .mainRet B.d.st :: (B.d.tsave ++ (B.d.tpers ++ B.d.tsend)))) ++ (B.tail ++ B.post) =
      a ++ x :: b := by rw [← hT, B.eq]; simp
  refine split_mid hsplit ?_ ?_
  · intro hm
    rcases List.mem_append.1 hm with hm | hm
    · rcases B.hpre x hm with ⟨_, rfl⟩ | rfl <;> simp at hx
    · have := B.d.isBody x hm
      revert this
      rcases hx with ⟨_, rfl⟩ | ⟨_, rfl⟩ | ⟨_, rfl⟩ | ⟨_, rfl⟩ <;> simp [Call.IsBody]
  · intro hm
    rcases B.hpost x hm with ⟨_, _, rfl⟩ | ⟨_, _, rfl⟩ <;> simp at hx

theorem handover_body {es : List Event} {st : Stat} (hm : Call.dispatchBegin es st ∈ (run env opts c h).2.trace ∨
    Call.dispatch es st ∈ (run env opts c h).2.trace) : Nonempty (BodyOf env opts c h) := by
  rcases hm with hm | hm <;> exact isEventCall_body hm rfl

/-- `DispatchBegin` returns a usable context whenever it succeeds. -/
def GivesContext (env : Env) : Prop := ∀ t es, (env.dispatchBegin t es).2 = .ok () → (env.dispatchBegin t es).1 = true

theorem BodyOf.pending (B : BodyOf env opts c h) (hb : opts.bus = .tx) (hctx : GivesContext env) {es : List Event}
    (hm : Call.dispatchBegin es .ok ∈ (run env opts c h).2.trace) :
    busPending (c.opts opts) (doStage env (c.opts opts) c.main (atMain (c.opts opts) B.keys (.fresh h))).2 = true := by
  have hs := B.handover hm rfl
  rcases B.d.send with ⟨h1, _⟩ | ⟨es', st, b, _, h1, h2⟩
  · rw [h1] at hs; simp at hs
  · unfold busPending
    rw [show (c.opts opts).bus = .tx from hb]
    rw [h2]
    generalize B.d.tsend = ts at h1 hs
    cases h1 with
    | onlyTx h' _ _ _ _ _ hk => simp [hctx _ _ hk]
    | both h' _ _ _ _ _ _ hk => simp [hctx _ _ hk]
    | beginFail st b _ _ _ _ hne => simp at hs; exact absurd hs.2.symm hne
    | _ => simp at hs

/-- **C31** (separation) On a bus with transactions, only transactional events are handed over by `DispatchBegin` and only the others by
`Dispatch`, and the handover happens inside the open database transaction. -/
theorem C31_handover (hw : opts.withTransaction = true) (hb : opts.bus = .tx) {a b : Trace} {x : Call} {es : List Event} {st : Stat}
    (hT : (run env opts c h).2.trace = a ++ x :: b) :
    (x = .dispatchBegin es st → es ≠ [] ∧ (∀ e ∈ es, e.tx = true) ∧ .begin .ok ∈ a ∧ ends a = []) ∧
    (x = .dispatch es st → es ≠ [] ∧ (∀ e ∈ es, e.tx = false) ∧ .begin .ok ∈ a ∧ ends a = []) := by
  have key : isHandover x = true → ∃ B : BodyOf env opts c h, x ∈ B.d.tsend ∧ .begin .ok ∈ a ∧ ends a = [] := by
    intro hh
    obtain ⟨B⟩ := isEventCall_body (c := c) (h := h) (x := x) (by rw [hT]; simp) (by cases x <;> simp_all [isHandover, isEventCall])
    have hin := B.handover (x := x) (by rw [hT]; simp) hh
    refine ⟨B, hin, ?_⟩
    have hsplit : B.pre ++ ((.mainStart :: B.d.tm ++ .mainRet B.d.st :: (B.d.tsave ++ (B.d.tpers ++ B.d.tsend))) ++ (B.tail ++ B.post)) =
        a ++ x :: b := by rw [← hT, B.eq]
    obtain ⟨m1, m2, e1, e2, e3⟩ := split_mid hsplit
      (fun hm => by rcases B.hpre x hm with ⟨_, rfl⟩ | rfl <;> simp [isHandover] at hh)
      (fun hm => by
        rcases List.mem_append.1 hm with hm | hm
        · have := B.htail x hm; revert this; revert hh; cases x <;> simp [Call.IsAfter, isHandover]
        · rcases B.hpost x hm with ⟨_, _, rfl⟩ | ⟨_, _, rfl⟩ <;> simp [isHandover] at hh)
    have hbm : Call.begin .ok ∈ B.pre := by
      rcases run_anatomy env opts c h with ⟨keys, hk, an⟩ | ⟨h1, h0⟩
      · have hbt : Call.begin .ok ∈ (run env opts c h).2.trace := by
          have hx : x ∈ (run env opts c h).2.trace := by rw [hT]; simp
          generalize (run env opts c h).2.trace = T at an hx
          generalize (run env opts c h).1 = R at an
          cases an with
          | early _ _ h' hres => rcases h'.noBody _ hx with ⟨_, _, rfl⟩ | ⟨_, _, rfl⟩ | ⟨_, _, rfl⟩ <;> simp [isHandover] at hh
          | plain body un posts _ b hn hw' hbody hr hpp =>
            rw [show (c.opts opts).withTransaction = true from hw] at hw'; simp at hw'
          | tx body tail un posts rt _ b hn hw hbody ht hr hpp => simp
        rw [B.eq] at hbt
        rcases List.mem_append.1 hbt with hbt | hbt
        · exact hbt
        · exfalso
          rcases List.mem_append.1 hbt with hbt | hbt
          · have := B.d.isBody _ hbt; simp [Call.IsBody] at this
          · rcases List.mem_append.1 hbt with hbt | hbt
            · have := B.htail _ hbt; simp [Call.IsAfter] at this
            · rcases B.hpost _ hbt with ⟨_, _, h⟩ | ⟨_, _, h⟩ <;> simp at h
      · have hx : x ∈ (run env opts c h).2.trace := by rw [hT]; simp
        rw [h0] at hx; simp at hx
    refine ⟨by rw [e2]; simp [hbm], ?_⟩
    rw [e2, ends_append, ends_nil_of, ends_nil_of]
    · rfl
    · intro y hy
      have := B.d.isBody y (by rw [e1]; simp [hy])
      exact isBody_not_end this
    · intro y hy; rcases B.hpre y hy with ⟨_, rfl⟩ | rfl <;> rfl
  constructor
  · rintro rfl
    obtain ⟨B, hin, h1, h2⟩ := key rfl
    refine ⟨?_, ?_, h1, h2⟩ <;>
    · rcases B.d.send with ⟨h3, _⟩ | ⟨es', st', b', _, h3, _⟩
      · rw [h3] at hin; simp at hin
      · generalize B.d.tsend = ts at h3 hin
        cases h3 <;> simp at hin <;> simp_all <;> exact List.exists_mem_of_ne_nil _ (by assumption)
  · rintro rfl
    obtain ⟨B, hin, h1, h2⟩ := key rfl
    refine ⟨?_, ?_, h1, h2⟩ <;>
    · rcases B.d.send with ⟨h3, _⟩ | ⟨es', st', b', _, h3, _⟩
      · rw [h3] at hin; simp at hin
      · generalize B.d.tsend = ts at h3 hin
        have hbus : (c.opts opts).bus = .tx := hb
        have hwt : (c.opts opts).withTransaction = true := hw
        cases h3 <;> simp at hin <;> simp_all <;> exact List.exists_mem_of_ne_nil _ (by assumption)

/-- **C31** The bus is told to commit only directly after the database commit succeeded, and only with transactional events handed over
successfully before. -/
theorem C31_bus_commit_only_after_commit (hw : opts.withTransaction = true) {a b : Trace} {st : Stat}
    (hT : (run env opts c h).2.trace = a ++ .busCommit st :: b) :
    ∃ a0 es, a = a0 ++ [.commit .ok] ∧ .dispatchBegin es .ok ∈ a0 := by
  have hx : Call.busCommit st ∈ (run env opts c h).2.trace := by rw [hT]; simp
  have hB : Nonempty (BodyOf env opts c h) := by
    rcases begun_cases env opts c h with ⟨h1, h2⟩ | ⟨keys, body, tail, un, posts, rt, b, hk, hn, hw, hbody, ht, hr, hpp, hT'⟩
    · exfalso
      rcases run_anatomy env opts c h with ⟨keys, hk, an⟩ | ⟨h1', h0⟩
      · generalize (run env opts c h).2.trace = T at an hx h1
        generalize (run env opts c h).1 = R at an
        cases an with
        | early _ _ h' hres => rcases h'.noBody _ hx with ⟨_, _, h⟩ | ⟨_, h⟩ | ⟨_, _, h⟩ <;> simp at h
        | plain body un posts _ b hn hw' hbody hr hpp =>
          rw [show (c.opts opts).withTransaction = true from hw] at hw'; simp at hw'
        | tx body tail un posts rt _ b hn hw hbody ht hr hpp => exact h1 (by simp)
      · rw [h0] at hx; simp at hx
    · obtain ⟨d, rfl⟩ := doStage_body _ _ hbody
      exact run_body ⟨.mainStart, by rw [hT']; simp, trivial⟩
  obtain ⟨B⟩ := hB
  obtain ⟨m1, m2, e1, e2, e3⟩ := B.inTail hT (by simp)
  have ht := B.htx hw
  have hcl : m1 = [.commit .ok] ∧ busPending (c.opts opts) (doStage env (c.opts opts) c.main (atMain (c.opts opts) B.keys (.fresh h))).2 = true ∧
      ∃ r, (doStage env (c.opts opts) c.main (atMain (c.opts opts) B.keys (.fresh h))).1 = some r ∧ r.clean := by
    rw [e1] at ht
    generalize (doStage env (c.opts opts) c.main (atMain (c.opts opts) B.keys (.fresh h))).1 = o at ht ⊢
    generalize busPending (c.opts opts) (doStage env (c.opts opts) c.main (atMain (c.opts opts) B.keys (.fresh h))).2 = pend at ht ⊢
    generalize B.rt = rt at ht
    generalize hq : m1 ++ .busCommit st :: m2 = q at ht
    clear e1 e2 e3
    have hin : Call.busCommit st ∈ q := by rw [← hq]; simp
    cases ht <;> simp at hin
    · next r b' hc hp hpend =>
      cases m1 with
      | nil => simp at hq
      | cons y m1 =>
        simp at hq
        obtain ⟨rfl, hq⟩ := hq
        cases m1 with
        | nil => exact ⟨rfl, hpend, r, rfl, hc⟩
        | cons z m1 => simp at hq
    · next r b' hc hpend =>
      cases m1 with
      | nil => simp at hq
      | cons y m1 =>
        simp at hq
        obtain ⟨rfl, hq⟩ := hq
        cases m1 with
        | nil => exact ⟨rfl, hpend, r, rfl, hc⟩
        | cons z m1 =>
          simp at hq
          cases m1 with
          | nil => simp at hq
          | cons w m1 => simp at hq
  obtain ⟨rfl, hp, r, hr, hc⟩ := hcl
  obtain ⟨_, _, hg⟩ := B.d.clean r hr hc
  have : ∃ es, Call.dispatchBegin es .ok ∈ B.d.tsend := by
    unfold busPending at hp
    simp only [Bool.and_eq_true] at hp
    rcases B.d.send with ⟨h1, h2⟩ | ⟨es', st', b', _, h3, h2⟩
    · rw [h2] at hp; simp [atMain, St.fresh] at hp
    · rw [h2] at hp
      have hg : ∀ x ∈ B.d.tsend, x.Good := fun x hx => hg x (by simp [hx])
      generalize B.d.tsend = ts at h3 hg
      cases h3 with
      | onlyTx => exact ⟨es'.filter Event.tx, by simp⟩
      | both => exact ⟨es'.filter Event.tx, by simp⟩
      | beginFail st b _ _ _ _ hne => simp [Call.Good] at hg; exact absurd hg hne
      | _ => simp [atMain, St.fresh] at hp
  obtain ⟨es, hes⟩ := this
  exact ⟨B.pre ++ (.mainStart :: B.d.tm ++ .mainRet B.d.st :: (B.d.tsave ++ (B.d.tpers ++ B.d.tsend))), es, e2, by simp [hes]⟩

/-- **C31** If transactional events were handed over and the database commit succeeded, the bus is told to commit right away. -/
theorem C31_committed_on_bus (hw : opts.withTransaction = true) (hb : opts.bus = .tx) (hctx : GivesContext env) {es : List Event}
    (hm : Call.dispatchBegin es .ok ∈ (run env opts c h).2.trace) (hc : Call.commit .ok ∈ (run env opts c h).2.trace) :
    ∃ a b st, (run env opts c h).2.trace = a ++ .commit .ok :: .busCommit st :: b := by
  obtain ⟨B⟩ := handover_body (.inl hm)
  have hp := B.pending hb hctx hm
  obtain ⟨a, b, hT⟩ := List.append_of_mem hc
  obtain ⟨m1, m2, e1, e2, e3⟩ := B.inTail hT (by simp)
  have ht := B.htx hw
  have : ∃ st m3, B.tail = .commit .ok :: .busCommit st :: m3 := by
    rw [hp] at ht
    have hin : Call.commit .ok ∈ B.tail := by rw [e1]; simp
    generalize (doStage env (c.opts opts) c.main (atMain (c.opts opts) B.keys (.fresh h))).1 = o at ht
    generalize B.rt = rt at ht
    generalize B.tail = q at ht hin
    clear e1 e2 e3
    cases ht <;> simp at hin
    · next h' => simp at h'
    · exact ⟨_, _, rfl⟩
    · exact ⟨_, _, rfl⟩
  obtain ⟨st, m3, h3⟩ := this
  refine ⟨B.pre ++ (.mainStart :: B.d.tm ++ .mainRet B.d.st :: (B.d.tsave ++ (B.d.tpers ++ B.d.tsend))), m3 ++ B.post, st, ?_⟩
  rw [B.eq, h3]; simp

/-- **C31** If transactional events were handed over and the command then ends with an error or break without attempting the database commit,
the bus is told to roll back, and never to commit. -/
theorem C31_rolled_back_on_bus (hw : opts.withTransaction = true) (hb : opts.bus = .tx) (hctx : GivesContext env) {es : List Event} {r : Result}
    (hm : Call.dispatchBegin es .ok ∈ (run env opts c h).2.trace) (hc : ∀ st, Call.commit st ∉ (run env opts c h).2.trace)
    (hr : (run env opts c h).1 = some r) :
    (r.error.isSome ∨ r.brk = true) ∧ (∃ st, Call.busRollback st ∈ (run env opts c h).2.trace) ∧
    ∀ st, Call.busCommit st ∉ (run env opts c h).2.trace := by
  obtain ⟨B⟩ := handover_body (.inl hm)
  have hp := B.pending hb hctx hm
  have ht := B.htx hw
  have hrt := B.hres r hr
  have hin : ∀ x ∈ B.tail, x ∈ (run env opts c h).2.trace := by intro x hx; rw [B.eq]; simp [hx]
  have : (¬ r.clean) ∧ ∃ st, Call.busRollback st ∈ B.tail := by
    rw [hp, hrt] at ht
    generalize (doStage env (c.opts opts) c.main (atMain (c.opts opts) B.keys (.fresh h))).1 = o at ht
    have hc' : ∀ st, Call.commit st ∉ B.tail := fun st h => hc st (hin _ h)
    generalize B.tail = q at ht hc' ⊢
    clear hrt hr hin
    generalize hrr : some r = rt at ht
    cases ht with
    | undone => simp at *
    | undoneBus r' st b hcl =>
      simp only [Option.some.injEq] at hrr
      exact ⟨hrr ▸ hcl, b, by simp⟩
    | commitErr => simp at hc'
    | committed => simp at hc'
    | committedBus => simp at hc'
    | _ => simp at hrr
  refine ⟨?_, ?_, ?_⟩
  · have := this.1
    unfold Result.clean at this
    cases he : r.error <;> simp_all
  · obtain ⟨st, h1⟩ := this.2; exact ⟨st, hin _ h1⟩
  · intro st hb'
    obtain ⟨a, b, hT⟩ := List.append_of_mem hb'
    obtain ⟨a0, _, h1, _⟩ := C31_bus_commit_only_after_commit hw hT
    exact hc .ok (by rw [hT, h1]; simp)

/-! ## C32 -/

/-- **C32** is false of the code: normal events are handed over before the database commit, which may then fail. -/
theorem C32_commit_may_fail_after_dispatch :
    let e : Env := { Demo.okEnv with commit := fun _ => .err (.msg 78) }
    Call.dispatch [⟨20, 5, false, 0⟩] .ok ∈ (run e Demo.txOpts Demo.addCmd Demo.evHeap).2.trace ∧
    (∀ x ∈ (run e Demo.txOpts Demo.addCmd Demo.evHeap).2.trace, x ≠ .commit .ok) ∧
    (run e Demo.txOpts Demo.addCmd Demo.evHeap).1.map (fun r => r.error.isSome) = some true := by decide +kernel

/-- **C32**, the part that holds: if normal events were handed over successfully, the very next call ends the transaction with a `Commit`;
a command that does not even attempt its commit has handed over no normal event (successfully). -/
theorem C32_dispatch_then_commit_partial (hw : opts.withTransaction = true) {a b : Trace} {es : List Event}
    (hT : (run env opts c h).2.trace = a ++ .dispatch es .ok :: b) :
    ∃ st b', b = .commit st :: b' := by
  have hx : Call.dispatch es .ok ∈ (run env opts c h).2.trace := by rw [hT]; simp
  obtain ⟨B⟩ := handover_body (.inr hx)
  have hin := B.handover hx rfl
  -- the dispatch is the last call of the body
  obtain ⟨u, hu, hg⟩ : ∃ u, B.d.tsend = u ++ [.dispatch es .ok] ∧ (∀ x ∈ B.d.tsend, x.Good) ∧ Call.dispatch es .ok ∉ u := by
    rcases B.d.send with ⟨h3, _⟩ | ⟨es', st', b', _, h3, _⟩
    · rw [h3] at hin; simp at hin
    · generalize B.d.tsend = ts at h3 hin ⊢
      cases h3 with
      | all st => simp at hin; exact ⟨[], by simp [hin], by simp [← hin.2, Call.Good], by simp⟩
      | onlyNormal st => simp at hin; exact ⟨[], by simp [hin], by simp [← hin.2, Call.Good], by simp⟩
      | both h' st => simp at hin; exact ⟨[_], by simp [hin]; rfl, by simp [← hin.2, Call.Good], by simp⟩
      | _ => simp at hin
  obtain ⟨hg, hnu⟩ := hg
  obtain ⟨r, hr, hcl⟩ := B.d.sendOk (by rw [hu]; simp) hg
  have ht := B.htx hw
  have htl : ∃ st q, B.tail = .commit st :: q := by
    rw [hr] at ht
    generalize B.rt = rt at ht
    generalize B.tail = q at ht ⊢
    generalize hq : some r = o at ht
    cases ht <;> simp at hq <;> simp_all
  obtain ⟨st, q, hq⟩ := htl
  refine ⟨st, q ++ B.post, ?_⟩
  have hsplit : (B.pre ++ (.mainStart :: B.d.tm ++ .mainRet B.d.st :: (B.d.tsave ++ (B.d.tpers ++ u)))) ++
      ([.dispatch es .ok] ++ (B.tail ++ B.post)) = a ++ .dispatch es .ok :: b := by rw [← hT, B.eq, hu]; simp
  obtain ⟨h1, h2, h3, h4, h5, h6⟩ := B.noEv
  obtain ⟨m1, m2, e1, e2, e3⟩ := split_mid hsplit (by
      intro hm
      simp only [List.mem_append, List.mem_cons] at hm
      rcases hm with hm | (hm | hm) | hm | hm | hm | hm
      · have := h1 _ hm; simp [isEventCall] at this
      · simp at hm
      · have := h2 _ hm; simp [isEventCall] at this
      · simp at hm
      · have := h3 _ hm; simp [isEventCall] at this
      · have := h4 _ hm; simp [isHandover] at this
      · exact hnu hm) (by
      intro hm
      rcases List.mem_append.1 hm with hm | hm
      · have := h5 _ hm; simp [isEventCall] at this
      · have := h6 _ hm; simp [isEventCall] at this)
  cases m1 with
  | nil => simp at e1; subst e1; rw [e3, hq]; simp
  | cons y m1 => simp at e1

/-! ## C33 -/

/-- **C33** With event persistence (and no dry run), when events are handed to the bus: right before the handover exactly one insert is executed; it
holds one row per event, in creation order, each built by the configured function from that event; it happens after `Main` returned (hence after
all entity writes, C30) and, with transactions, inside the transaction; the events handed over are among those persisted, and all of them are handed
over when the command succeeds. -/
theorem C33_persisted_events (hp : opts.eventPersist = true) (hd : opts.dryRun = false)
    (hm : ∃ x ∈ (run env opts c h).2.trace, isHandover x = true) :
    ∃ es ms a sends b, (run env opts c h).2.trace =
        a ++ ((es.map fun e => Call.evModel e .ok) ++ .exec { op := .insert, models := ms, prev := [] } .ok :: (sends ++ b)) ∧
      List.Forall₂ (fun e m => ∃ t, env.evModel t e = .ok m) es ms ∧ es.Pairwise Before ∧ (es.map Event.id).Nodup ∧
      (∀ x ∈ sends, isHandover x = true) ∧ (∀ x ∈ a ++ b, isEventCall x = false) ∧
      (∀ w st, Call.exec w st ∉ b) ∧ .mainRet .ok ∈ a ∧ ends a = [] ∧
      (∀ e ∈ handed (run env opts c h).2.trace, e ∈ es) ∧
      (∀ r, (run env opts c h).1 = some r → r.clean → (handed (run env opts c h).2.trace).Perm es) := by
  obtain ⟨x, hx, hxh⟩ := hm
  obtain ⟨B⟩ := isEventCall_body hx (by cases x <;> simp_all [isHandover, isEventCall])
  have hin := B.handover hx hxh
  have hts : B.d.tsend ≠ [] := List.ne_nil_of_mem hin
  obtain ⟨s2, st', hps, F, hst⟩ := B.d.fin (.inl (by simp [hts]))
  obtain ⟨ms, hms, htp⟩ := F.persExact hp (.inl hts)
  rw [show (c.opts opts).dryRun = false from hd, if_neg (by simp)] at htp
  obtain ⟨c1, c2, c3, c4, c5⟩ := C29_collected (env := env) s2
  obtain ⟨h1, h2, h3, h4, h5, h6⟩ := B.noEv
  have hst0 : B.d.st = .ok := (B.d.stop (by simp [hts])).1
  refine ⟨collectEvents env s2, ms, B.pre ++ (.mainStart :: B.d.tm ++ .mainRet B.d.st :: B.d.tsave), B.d.tsend, B.tail ++ B.post, ?_, hms, c1, c2,
    ?_, ?_, ?_, ?_, ?_, ?_, ?_⟩
  · rw [B.eq, htp]; simp
  · intro y hy
    have := B.tsend_isSend y hy
    revert this; cases y <;> simp [Call.IsSend, isHandover]
  · intro y hy
    simp only [List.mem_append, List.mem_cons] at hy
    rcases hy with (hy | (rfl | hy) | rfl | hy) | hy | hy
    · exact h1 y hy
    · rfl
    · exact h2 y hy
    · rfl
    · exact h3 y hy
    · exact h5 y hy
    · exact h6 y hy
  · intro w st hy
    rcases List.mem_append.1 hy with hy | hy
    · have := B.htail _ hy; simp [Call.IsAfter] at this
    · rcases B.hpost _ hy with ⟨_, _, h⟩ | ⟨_, _, h⟩ <;> simp at h
  · rw [hst0]; simp
  · rw [ends_append, ends_nil_of, ends_nil_of]
    · rfl
    · intro y hy
      refine isBody_not_end (dry := opts.dryRun) (B.d.isBody y ?_)
      simp only [List.mem_append, List.mem_cons] at hy ⊢
      rcases hy with (hy | hy) | hy | hy
      · exact .inl (.inl hy)
      · exact .inl (.inr hy)
      · exact .inr (.inl hy)
      · exact .inr (.inr (.inl hy))
    · intro y hy; rcases B.hpre y hy with ⟨_, rfl⟩ | rfl <;> rfl
  · intro e he
    rw [B.handed_eq] at he
    rcases F.send with ⟨h7, _⟩ | ⟨_, _, _, h7, _⟩
    · exact absurd h7 hts
    · exact h7.handed_mem e he
  · intro r hr hc
    rw [B.handed_eq]
    have hrt := B.hres r hr
    have hcl : ∃ r, (doStage env (c.opts opts) c.main (atMain (c.opts opts) B.keys (.fresh h))).1 = some r ∧ r.clean := by
      cases hw : opts.withTransaction with
      | false => exact ⟨r, by rw [← (B.hplain hw).2, hrt], hc⟩
      | true =>
        have ht := B.htx hw
        rw [hrt] at ht
        generalize (doStage env (c.opts opts) c.main (atMain (c.opts opts) B.keys (.fresh h))).1 = o at ht ⊢
        generalize hq : some r = q at ht
        generalize B.tail = tl at ht
        clear hrt hr
        cases ht <;> simp_all [Result.clean]
    have hne : collectEvents env s2 ≠ [] := by
      rcases F.send with ⟨h7, _⟩ | ⟨_, _, h7, _⟩
      · exact absurd h7 hts
      · exact h7
    obtain ⟨b, hb⟩ := F.sendOk (hst hcl) hne
    exact hb.handed_ok rfl hd

/-- **C33** Without event persistence no event is turned into a row. -/
theorem C33_not_persisted (hp : opts.eventPersist = false) (e : Event) (st : Stat) : Call.evModel e st ∉ (run env opts c h).2.trace := by
  intro hx
  obtain ⟨B⟩ := isEventCall_body hx rfl
  rcases List.mem_append.1 (B.eventCalls hx rfl) with h1 | h1
  · have hne : B.d.tpers ++ B.d.tsend ≠ [] := List.ne_nil_of_mem (List.mem_append_left _ h1)
    obtain ⟨s2, st', hps, F, hst⟩ := B.d.fin (.inl hne)
    rw [F.noPers hp] at h1; simp at h1
  · have := B.tsend_isSend _ h1; simp [Call.IsSend] at this

/-- the hypotheses of C29–C33 are met by the demo command: two events, one transactional, both persisted. -/
example : (∃ x ∈ (run Demo.okEnv Demo.txOpts Demo.addCmd Demo.evHeap).2.trace, isHandover x = true) ∧
    handed (run Demo.okEnv Demo.txOpts Demo.addCmd Demo.evHeap).2.trace = [⟨21, 5, true, 0⟩, ⟨20, 5, false, 0⟩] ∧
    ((run Demo.okEnv Demo.txOpts Demo.addCmd Demo.evHeap).2.trace.filter isEventCall).length = 4 := by decide +kernel

example : GivesContext Demo.okEnv := fun _ _ _ => rfl

/-- a failing `Dispatch` after the transactional events were handed over: rolled back on the bus (C31). -/
example : let e : Env := { Demo.okEnv with dispatch := fun _ _ => .err (.msg 77) }
    Call.dispatchBegin [⟨21, 5, true, 0⟩] .ok ∈ (run e Demo.txOpts Demo.addCmd Demo.evHeap).2.trace ∧
    Call.busRollback .ok ∈ (run e Demo.txOpts Demo.addCmd Demo.evHeap).2.trace := by decide +kernel

end Ddd
