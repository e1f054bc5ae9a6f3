import Verif.Proofs.Jobs
/-! The calls of a whole command: main, final save, events, transaction, locks, PostSave hooks. -/
set_option linter.unusedVariables false
namespace Ddd

variable (env : Env) (opts : Opts)

theorem eventModels_does (es) : Does (Call.IsEvPersist opts.dryRun) (eventModels env es) := by
  induction es with
  | nil => exact Does.pure _
  | cons e es ih =>
    exact Does.bind (Does.ext fun _ => trivial) fun m => Does.bind ih fun ms => Does.pure _

theorem eventModels_good (es) : OkGood (eventModels env es) := by
  induction es with
  | nil => exact OkGood.pure _
  | cons e es ih =>
    exact OkGood.bind (OkGood.ext (by simp [Call.Good])) fun m => OkGood.bind ih fun ms => OkGood.pure _

theorem M.bind_run {α β : Type} {m : M α} {f : α → M β} {s : St} :
    M.bind m f s = match m s with
      | (.ok a, s') => f a s'
      | (.err e, s') => (.err e, s')
      | (.panic, s') => (.panic, s') := rfl

/-- exact effect of building the event rows. -/
theorem eventModels_ok {es : List Event} {s s' : St} {ms : List Model} (h : eventModels env es s = (.ok ms, s')) :
    s' = { s with trace := s.trace ++ es.map fun e => .evModel e .ok } ∧
      List.Forall₂ (fun e m => ∃ t, env.evModel t e = .ok m) es ms := by
  induction es generalizing s ms with
  | nil =>
    simp only [eventModels, M.pure, Prod.mk.injEq, Res.ok.injEq] at h
    obtain ⟨rfl, rfl⟩ := h
    simp
  | cons e es ih =>
    unfold eventModels at h
    obtain ⟨m, s1, h1, h2⟩ := bind_ok h
    obtain ⟨ms', s2, h3, h4⟩ := bind_ok h2
    simp only [M.pure, Prod.mk.injEq, Res.ok.injEq] at h4
    obtain ⟨rfl, rfl⟩ := h4
    unfold M.ext at h1
    simp only [Prod.mk.injEq] at h1
    obtain ⟨h5, h6⟩ := h1
    rw [h5] at h6
    obtain ⟨e1, e2⟩ := ih h3
    constructor
    · rw [e1, ← h6]; simp [St.log, Res.stat]
    · exact .cons ⟨s.trace, h5⟩ e2

theorem persistEvents_does (es) : Does (Call.IsEvPersist opts.dryRun) (persistEvents env opts es) := by
  intro s
  unfold persistEvents
  have h := eventModels_does env opts es s
  split
  · next h' =>
    rw [h'] at h
    refine h.trans ((does_exec env opts _).mono ?_ _)
    intro c hc; cases c <;> simp_all [Call.IsExec, Call.IsEvPersist]
  · next h' => rw [h'] at h; exact h
  · next h' => rw [h'] at h; exact h

theorem persistEvents_good (es) : OkGood (persistEvents env opts es) := by
  intro s a s' h
  unfold persistEvents at h
  split at h
  · next h' =>
    obtain ⟨t1, e1, g1⟩ := eventModels_good env es _ _ _ h'
    obtain ⟨t2, e2, g2⟩ := okGood_exec env opts _ _ _ _ h
    refine ⟨t1 ++ t2, by rw [e2, e1, List.append_assoc], ?_⟩
    intro c hc
    rcases List.mem_append.1 hc with hc | hc
    · exact g1 c hc
    · exact g2 c hc
  · simp at h
  · simp at h

/-- every call but the last one succeeded; if the code succeeds, the last one did too. -/
def Halts {α : Type} (m : M α) : Prop :=
  ∀ s, ∃ t, (m s).2.trace = s.trace ++ t ∧ (∀ x ∈ t.dropLast, x.Good) ∧ (∀ a, (m s).1 = .ok a → ∀ x ∈ t, x.Good)

theorem Halts.pure {α : Type} (a : α) : Halts (M.pure a) := fun s => ⟨[], by simp [M.pure], by simp, by simp⟩

theorem Halts.ext {α : Type} {ans : St → Res α} {mk : Stat → Call} (h : (mk .ok).Good) : Halts (M.ext ans mk) := fun s =>
  ⟨[mk (ans s).stat], rfl, by simp, fun a ha x hx => by
    simp only [M.ext] at ha
    simp only [List.mem_singleton] at hx
    rw [hx, ha]; exact h⟩

theorem Halts.modify {f : St → St} (h : ∀ s, (f s).trace = s.trace) : Halts (M.modify f) := fun s =>
  ⟨[], by simp [M.modify, h], by simp, by simp⟩

theorem Halts.bind {α β : Type} {m : M α} {f : α → M β} (hm : Halts m) (hf : ∀ a, Halts (f a)) : Halts (M.bind m f) := by
  intro s
  obtain ⟨t1, e1, d1, g1⟩ := hm s
  unfold M.bind
  generalize m s = x at *
  obtain ⟨r, s1⟩ := x
  cases r with
  | ok a =>
    obtain ⟨t2, e2, d2, g2⟩ := hf a s1
    have g1 := g1 a rfl
    simp only at e1
    refine ⟨t1 ++ t2, by dsimp only; rw [e2, e1, List.append_assoc], ?_, ?_⟩
    · intro x hx
      by_cases h2 : t2 = []
      · subst h2; exact g1 x (List.dropLast_subset _ (by simpa using hx))
      · rw [List.dropLast_append_of_ne_nil h2] at hx
        rcases List.mem_append.1 hx with hx | hx
        · exact g1 x hx
        · exact d2 x hx
    · intro b hb x hx
      rcases List.mem_append.1 hx with hx | hx
      · exact g1 x hx
      · exact g2 b hb x hx
  | err e => exact ⟨t1, e1, d1, by simp⟩
  | panic => exact ⟨t1, e1, d1, by simp⟩

theorem Halts.forEach {α : Type} {f : α → M Unit} (h : ∀ x, Halts (f x)) (l : List α) : Halts (M.forEach l f) := by
  induction l with
  | nil => exact Halts.pure ()
  | cons x l ih => exact Halts.bind (h x) fun _ => ih

theorem persistEvents_halts (es : List Event) : Halts (persistEvents env opts es) := by
  have h1 : ∀ es, Halts (eventModels env es) := by
    intro es
    induction es with
    | nil => exact Halts.pure _
    | cons e es ih => exact Halts.bind (Halts.ext rfl) fun _ => Halts.bind ih fun _ => Halts.pure _
  have h2 : ∀ as, Halts (exec env opts as) := by
    intro as
    unfold exec
    split
    · exact Halts.pure _
    · exact Halts.bind (Halts.forEach (fun a => Halts.ext (mk := .exec a) rfl) _) fun _ => Halts.modify fun _ => rfl
  intro s
  have h := Halts.bind (h1 es) (fun ms => h2 [{ op := .insert, models := ms, prev := [] }]) s
  unfold persistEvents
  rw [M.bind_run] at h
  generalize eventModels env es s = x at h ⊢
  obtain ⟨r, s1⟩ := x
  cases r with
  | ok ms => exact h
  | err e => obtain ⟨t, e1, d1, _⟩ := h; exact ⟨t, e1, d1, by simp⟩
  | panic => obtain ⟨t, e1, d1, _⟩ := h; exact ⟨t, e1, d1, by simp⟩

/-- exact effect of persisting the events. -/
theorem persistEvents_ok {es : List Event} {s s' : St} (h : persistEvents env opts es s = (.ok (), s')) :
    ∃ ms, List.Forall₂ (fun e m => ∃ t, env.evModel t e = .ok m) es ms ∧
      s'.trace = s.trace ++ ((es.map fun e => Call.evModel e .ok) ++
        if opts.dryRun then [] else [.exec { op := .insert, models := ms, prev := [] } .ok]) := by
  unfold persistEvents at h
  split at h
  · next ms s1 h' =>
    obtain ⟨e1, e2⟩ := eventModels_ok env h'
    refine ⟨ms, e2, ?_⟩
    unfold exec at h
    split at h
    · next hd =>
      simp only [M.pure, Prod.mk.injEq] at h
      rw [← h.2, e1]; simp [hd]
    · next hd =>
      obtain ⟨_, s2, h1, h2⟩ := bind_ok h
      simp only [M.modify, Prod.mk.injEq] at h2
      simp only [M.forEach] at h1
      obtain ⟨_, s3, h3, h4⟩ := bind_ok h1
      simp only [M.pure, Prod.mk.injEq] at h4
      unfold M.ext at h3
      simp only [Prod.mk.injEq] at h3
      rw [← h2.2, ← h4.2, ← h3.2, h3.1, e1]
      simp [St.log, Res.stat, hd]
  · simp at h
  · simp at h

/-- How handing the events `es` to the bus can go: the calls made, how it ended, and the bus context obtained (if assigned). -/
inductive SendRun (env : Env) (opts : Opts) (es : List Event) : Trace → Stat → Option Bool → Prop
  | noBus : opts.bus = .nil → SendRun env opts es [] .err none
  | dry : opts.bus ≠ .nil → opts.dryRun = true → SendRun env opts es [] .ok none
  | all (st : Stat) : opts.dryRun = false → opts.bus ≠ .nil → (opts.withTransaction = false ∨ opts.bus = .plain) →
      SendRun env opts es [.dispatch es st] st none
  | beginFail (st : Stat) (b : Option Bool) : opts.dryRun = false → opts.withTransaction = true → opts.bus = .tx →
      es.any Event.tx = true → st ≠ .ok →
      SendRun env opts es [.dispatchBegin (es.filter Event.tx) st] st b
  | onlyTx (h : Trace) : opts.dryRun = false → opts.withTransaction = true → opts.bus = .tx →
      es.any Event.tx = true → es.any (fun e => !e.tx) = false → (env.dispatchBegin h (es.filter Event.tx)).2 = .ok () →
      SendRun env opts es [.dispatchBegin (es.filter Event.tx) .ok] .ok (some (env.dispatchBegin h (es.filter Event.tx)).1)
  | onlyNormal (st : Stat) : opts.dryRun = false → opts.withTransaction = true → opts.bus = .tx →
      es.any Event.tx = false → es.any (fun e => !e.tx) = true →
      SendRun env opts es [.dispatch (es.filter fun e => !e.tx) st] st none
  | both (h : Trace) (st : Stat) : opts.dryRun = false → opts.withTransaction = true → opts.bus = .tx →
      es.any Event.tx = true → es.any (fun e => !e.tx) = true → (env.dispatchBegin h (es.filter Event.tx)).2 = .ok () →
      SendRun env opts es [.dispatchBegin (es.filter Event.tx) .ok, .dispatch (es.filter fun e => !e.tx) st] st
        (some (env.dispatchBegin h (es.filter Event.tx)).1)
  | nothing : opts.dryRun = false → opts.withTransaction = true → opts.bus = .tx → es = [] → SendRun env opts es [] .ok none

theorem inErrList_fst (x : Res Unit × St) : (inErrList x).1.stat = x.1.stat := by
  obtain ⟨r, s⟩ := x; cases r <;> rfl
theorem inErrList_snd (x : Res Unit × St) : (inErrList x).2 = x.2 := by
  obtain ⟨r, s⟩ := x; cases r <;> rfl

theorem busDispatch_run (es : List Event) (s : St) :
    busDispatch env es s = (env.dispatch s.trace es, { s with trace := s.trace ++ [.dispatch es (env.dispatch s.trace es).stat] }) :=
  rfl

theorem busBegin_run (es : List Event) (s : St) :
    (busBegin env es s).1 = (env.dispatchBegin s.trace es).2 ∧
    ∃ b, (busBegin env es s).2 = { s with trace := s.trace ++ [.dispatchBegin es (env.dispatchBegin s.trace es).2.stat],
                                          eventCtx := Option.getD b s.eventCtx } ∧
      ((env.dispatchBegin s.trace es).2 ≠ .panic → b = some (env.dispatchBegin s.trace es).1) := by
  unfold busBegin
  cases h : (env.dispatchBegin s.trace es).2 with
  | ok u => exact ⟨rfl, some _, rfl, fun _ => rfl⟩
  | err e => exact ⟨rfl, some _, rfl, fun _ => rfl⟩
  | panic => exact ⟨rfl, none, rfl, fun h => absurd rfl h⟩

theorem sendEvents_run (es : List Event) (s : St) : ∃ t st b, SendRun env opts es t st b ∧
    (sendEvents env opts es s).1.stat = st ∧
    (sendEvents env opts es s).2 = { s with trace := s.trace ++ t, eventCtx := Option.getD b s.eventCtx } := by
  unfold sendEvents
  split
  · next hb => exact ⟨[], .err, none, .noBus hb, rfl, by simp⟩
  next hb =>
  rw [inErrList_fst, inErrList_snd]
  unfold dispatchEvents
  split
  · next hd => exact ⟨[], .ok, none, .dry hb hd, rfl, by simp [M.pure]⟩
  next hd =>
  replace hd : opts.dryRun = false := by simpa using hd
  split
  · next hw =>
    rw [busDispatch_run]
    refine ⟨_, _, none, .all _ hd hb ?_, rfl, rfl⟩
    simp only [Bool.or_eq_true, decide_eq_true_eq] at hw
    rcases hw with h | h
    · left; simpa using h
    · right; cases hbb : opts.bus <;> simp_all
  next hw =>
  simp only [Bool.or_eq_true, decide_eq_true_eq, not_or, Bool.not_eq_true, Bool.not_eq_false', not_not] at hw
  obtain ⟨hw, hbt⟩ := hw
  cases htx : es.any Event.tx with
  | false =>
    rw [if_neg (by simp)]
    simp only [M.bind_run, M.pure]
    cases hno : es.any (fun e => !e.tx) with
    | false =>
      rw [if_neg (by simp)]
      refine ⟨[], .ok, none, .nothing hd hw hbt ?_, rfl, by simp [M.pure]⟩
      rw [List.eq_nil_iff_forall_not_mem]
      intro e he
      rw [List.any_eq_false] at htx hno
      have h1 := htx e he
      have h2 := hno e he
      cases h3 : e.tx <;> simp_all
    | true =>
      rw [if_pos rfl, busDispatch_run]
      exact ⟨_, _, none, .onlyNormal _ hd hw hbt htx hno, rfl, rfl⟩
  | true =>
    rw [if_pos rfl]
    obtain ⟨h1, b, h2, h3⟩ := busBegin_run env (es.filter Event.tx) s
    simp only [M.bind_run]
    generalize hx : busBegin env (es.filter Event.tx) s = x at h1 h2
    obtain ⟨r, s1⟩ := x
    simp only at h1 h2
    subst h2
    cases hr : r with
    | ok u =>
      rw [hr] at h1
      have hb' := h3 (by rw [← h1]; simp)
      dsimp only
      cases hno : es.any (fun e => !e.tx) with
      | false =>
        rw [if_neg (by simp)]
        refine ⟨_, _, _, .onlyTx s.trace hd hw hbt htx hno h1.symm, rfl, ?_⟩
        simp [M.pure, ← h1, hb', Res.stat]
      | true =>
        rw [if_pos rfl, busDispatch_run]
        refine ⟨_, _, _, .both s.trace _ hd hw hbt htx hno h1.symm, rfl, ?_⟩
        simp [← h1, hb', Res.stat]
    | err e =>
      dsimp only
      refine ⟨_, .err, b, .beginFail _ b hd hw hbt htx (by simp), rfl, ?_⟩
      rw [← h1, hr]; rfl
    | panic =>
      dsimp only
      refine ⟨_, .panic, b, .beginFail _ b hd hw hbt htx (by simp), rfl, ?_⟩
      rw [← h1, hr]; rfl

namespace SendRun
variable {env opts} {es : List Event} {t : Trace} {st : Stat} {b : Option Bool}

theorem isSend (h : SendRun env opts es t st b) : ∀ c ∈ t, Call.IsSend opts.dryRun c := by
  cases h <;> simp_all [Call.IsSend]

theorem good (h : SendRun env opts es t st b) (hs : st = .ok) : ∀ c ∈ t, c.Good := by
  cases h <;> simp_all [Call.Good]

theorem bad (h : SendRun env opts es t st b) (hs : st ≠ .ok) : opts.bus = .nil ∨ ∃ c ∈ t, ¬ c.Good := by
  cases h <;> simp_all [Call.Good]

end SendRun

/-- why a piece of code did not succeed: one of its calls did not, or `X` (about the recorded snapshots, which it does not change). -/
def Cause (X : (Node → Option Snap) → Prop) {α : Type} (m : M α) : Prop := ∀ s,
  (∃ t, (m s).2.trace = s.trace ++ t ∧ ((m s).1.stat ≠ .ok → (∃ c ∈ t, ¬ c.Good) ∨ X s.snap)) ∧ (m s).2.snap = s.snap

namespace Cause
variable {X : (Node → Option Snap) → Prop} {α β : Type}

theorem pure (a : α) : Cause X (M.pure a) := fun s => ⟨⟨[], by simp [M.pure, Res.stat]⟩, rfl⟩

theorem bind {m : M α} {f : α → M β} (hm : Cause X m) (hf : ∀ a, Cause X (f a)) : Cause X (M.bind m f) := by
  intro s
  obtain ⟨⟨t1, e1, b1⟩, k1⟩ := hm s
  unfold M.bind
  cases h : m s with
  | mk r s1 =>
    rw [h] at e1 b1 k1
    cases r with
    | ok a =>
      obtain ⟨⟨t2, e2, b2⟩, k2⟩ := hf a s1
      refine ⟨⟨t1 ++ t2, ?_, ?_⟩, k2.trans k1⟩
      · simp only at e1 ⊢; rw [e2, e1, List.append_assoc]
      · intro hne
        rcases b2 hne with ⟨c, hc, hb⟩ | hx
        · exact .inl ⟨c, by simp [hc], hb⟩
        · right; simp only at k1; rw [← k1]; exact hx
    | err e => exact ⟨⟨t1, e1, fun _ => b1 (by simp [Res.stat])⟩, k1⟩
    | panic => exact ⟨⟨t1, e1, fun _ => b1 (by simp [Res.stat])⟩, k1⟩

theorem forEach {f : α → M Unit} {l : List α} (hf : ∀ a ∈ l, Cause X (f a)) : Cause X (M.forEach l f) := by
  induction l with
  | nil => exact pure ()
  | cons a l ih => exact bind (hf a (by simp)) fun _ => ih fun x hx => hf x (by simp [hx])

theorem ext {ans : St → Res α} {mk : Stat → Call} (h : ∀ st, st ≠ .ok → ¬ (mk st).Good) : Cause X (M.ext ans mk) := by
  intro s
  refine ⟨⟨[mk (ans s).stat], rfl, fun hne => .inl ⟨_, List.mem_singleton.2 rfl, h _ hne⟩⟩, rfl⟩

theorem extH {ans : St → Heap × Res Unit} {mk : Stat → Call} (h : ∀ st, st ≠ .ok → ¬ (mk st).Good) :
    Cause X (M.extH ans mk) := by
  intro s
  refine ⟨⟨[mk (ans s).2.stat], rfl, fun hne => .inl ⟨_, List.mem_singleton.2 rfl, h _ hne⟩⟩, rfl⟩

theorem modify {f : St → St} (h : ∀ s, (f s).trace = s.trace ∧ (f s).snap = s.snap) : Cause X (M.modify f) := by
  intro s
  exact ⟨⟨[], by simp [M.modify, (h s).1, Res.stat]⟩, (h s).2⟩

end Cause

theorem cause_runHooks {X} (b cs) : Cause X (runHooks env b cs) := by
  refine Cause.forEach fun c _ => Cause.forEach fun n _ => ?_
  intro s
  unfold execHook
  split
  · exact Cause.pure () s
  · split
    · refine Cause.extH ?_ s
      exact fun st h h' => h h'
    · exact Cause.pure () s

theorem cause_putNewID {X} (cs) : Cause X (putNewID env cs) := by
  refine Cause.forEach fun c _ => ?_
  split
  · refine Cause.forEach fun n _ => ?_
    intro s
    unfold putID
    split
    · exact Cause.pure () s
    · split
      · refine Cause.bind (Cause.ext (mk := .newID) (fun st h h' => h h')) (fun _ => Cause.modify ?_) s
        exact fun _ => ⟨rfl, rfl⟩
      · exact Cause.pure () s
  · exact Cause.pure ()

theorem cause_actStep {X : (Node → Option Snap) → Prop} (c n acc)
    (hX : ∀ snap : Node → Option Snap, c.ctype.op = .update → snap n = none → X snap) : Cause X (actStep env c n acc) := by
  intro s
  unfold actStep convert
  dsimp only
  generalize hr : env.conv s.trace s.heap n (some c.parent) c.ctype.op = r
  cases r with
  | panic => exact ⟨⟨_, rfl, fun _ => .inl ⟨_, List.mem_singleton.2 rfl, by simp [Call.Good, Res.stat]⟩⟩, rfl⟩
  | err e =>
    dsimp only
    split
    · exact ⟨⟨_, rfl, by simp [Res.stat]⟩, rfl⟩
    · next he => exact ⟨⟨_, rfl, fun _ => .inl ⟨_, List.mem_singleton.2 rfl, by simp [Call.Good, Res.stat, he]⟩⟩, rfl⟩
  | ok m =>
    dsimp only
    split
    · next hu =>
      cases hsn : s.snap n with
      | none =>
        rw [show (St.log s _).snap n = s.snap n from rfl, hsn]
        exact ⟨⟨_, rfl, fun _ => .inr (hX _ hu hsn)⟩, rfl⟩
      | some sn =>
        rw [show (St.log s _).snap n = s.snap n from rfl, hsn]
        exact ⟨⟨_, rfl, by simp [Res.stat]⟩, rfl⟩
    · exact ⟨⟨_, rfl, by simp [Res.stat]⟩, rfl⟩

/-- an update is due for an entity that has no recorded snapshot. -/
def Untracked (cs : List (Change Node)) (snap : Node → Option Snap) : Prop :=
  ∃ n p, (⟨n, p, .update⟩ : Spec.Job) ∈ Spec.jobs cs ∧ snap n = none

theorem cause_makeActions (cs) : Cause (Untracked cs) (makeActions env cs) := by
  refine Cause.bind ?_ fun _ => Cause.pure _
  suffices H : ∀ l : List (Change Node), (∀ c ∈ l, c ∈ cs) → ∀ acc, Cause (Untracked cs) (actLoops env l acc) from H cs (fun _ h => h) _
  intro l
  induction l with
  | nil => intro _ acc; exact Cause.pure acc
  | cons c l ih =>
    intro hl acc
    refine Cause.bind ?_ fun acc => ih (fun x hx => hl x (by simp [hx])) acc
    suffices H : ∀ ns : List Node, (∀ n ∈ ns, n ∈ c.children) → ∀ acc, Cause (Untracked cs) (actLoop env c ns acc) from
      H _ (fun _ h => h) _
    intro ns
    induction ns with
    | nil => intro _ acc; exact Cause.pure acc
    | cons n ns ih2 =>
      intro hn acc
      refine Cause.bind (cause_actStep env c n acc ?_) fun acc => ih2 (fun x hx => hn x (by simp [hx])) acc
      intro snap hu hs
      refine ⟨n, c.parent, ?_, hs⟩
      rw [← hu]
      unfold Spec.jobs
      exact List.mem_flatMap.2 ⟨c, hl c (by simp), List.mem_map.2 ⟨n, hn n (by simp), rfl⟩⟩

theorem cause_exec {X} (as) : Cause X (exec env opts as) := by
  unfold exec
  split
  · exact Cause.pure ()
  · exact Cause.bind (Cause.forEach fun a _ => Cause.ext (fun st h h' => h h')) fun _ =>
      Cause.modify fun _ => ⟨rfl, rfl⟩

/-- why a save fails: the aggregate has a conflict, or one of the calls of the save failed, or an update is due for an entity
without snapshot. -/
theorem persist_cause (s : St) (h : (persist env opts s).1.stat ≠ .ok) :
    entityChanges env opts s = none ∨
    (∃ t, (persist env opts s).2.trace = s.trace ++ t ∧ ∃ c ∈ t, ¬ c.Good) ∨
    ∃ cs, entityChanges env opts s = some cs ∧ Untracked cs s.snap := by
  cases hc : entityChanges env opts s with
  | none => exact .inl rfl
  | some cs =>
    right
    have key : Cause (Untracked cs) (M.bind (runHooks env true cs) fun _ => M.bind (putNewID env cs) fun _ =>
        M.bind (makeActions env cs) fun as => M.bind (exec env opts as) fun _ =>
        M.bind (runHooks env false cs) fun _ => recycle cs) :=
      Cause.bind (cause_runHooks env _ _) fun _ => Cause.bind (cause_putNewID env _) fun _ =>
        Cause.bind (cause_makeActions env _) fun _ => Cause.bind (cause_exec env opts _) fun _ =>
        Cause.bind (cause_runHooks env _ _) fun _ => Cause.modify fun _ => ⟨rfl, rfl⟩
    have he : persist env opts s = (M.bind (runHooks env true cs) fun _ => M.bind (putNewID env cs) fun _ =>
        M.bind (makeActions env cs) fun as => M.bind (exec env opts as) fun _ =>
        M.bind (runHooks env false cs) fun _ => recycle cs) s := by
      rw [persist_eq]
      rw [M.bind_run]
      unfold getEntityChanged
      rw [hc]
    rw [he] at h ⊢
    obtain ⟨⟨t, e, b⟩, _⟩ := key s
    rcases b h with h | h
    · exact .inl ⟨t, e, h⟩
    · exact .inr ⟨cs, rfl, h⟩

theorem persistEvents_cause (es) (s : St) (h : (persistEvents env opts es s).1.stat ≠ .ok) :
    ∃ t, (persistEvents env opts es s).2.trace = s.trace ++ t ∧ ∃ c ∈ t, ¬ c.Good := by
  have hm : ∀ es, Cause (fun _ => False) (eventModels env es) := by
    intro es
    induction es with
    | nil => exact Cause.pure _
    | cons e es ih =>
      exact Cause.bind (Cause.ext (fun st h h' => h h')) fun _ => Cause.bind ih fun _ => Cause.pure _
  obtain ⟨⟨t, e, b⟩, _⟩ := hm es s
  unfold persistEvents at h ⊢
  cases hr : eventModels env es s with
  | mk r s1 =>
    rw [hr] at h e b
    cases r with
    | ok ms =>
      dsimp only at h e ⊢
      obtain ⟨⟨t2, e2, b2⟩, _⟩ := cause_exec (X := fun _ => False) env opts [{ op := .insert, models := ms, prev := [] }] s1
      rcases b2 h with ⟨c, hc, hb⟩ | hf
      · exact ⟨t ++ t2, by rw [e2, e, List.append_assoc], c, by simp [hc], hb⟩
      · exact hf.elim
    | err e' =>
      rcases b (by simp [Res.stat]) with h | h
      · exact ⟨t, e, h⟩
      · exact h.elim
    | panic =>
      rcases b (by simp [Res.stat]) with h | h
      · exact ⟨t, e, h⟩
      · exact h.elim

end Ddd
