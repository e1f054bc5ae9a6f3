import Verif.Props.Command
import Verif.Spec.Events
/-!
# C29–C33: events of a command
-/
set_option linter.unusedVariables false
set_option linter.unusedSimpArgs false
set_option linter.unusedTactic false
namespace Ddd
open Spec

variable {env : Env} {opts : Opts} {c : Cmd} {h : Heap}

/-! ## C29: what is collected -/

theorem mem_putEvent_id {m : List Event} {e : Event} {i : Nat} :
    (∃ x ∈ putEvent m e, x.id = i) ↔ (∃ x ∈ m, x.id = i) ∨ e.id = i := by
  unfold putEvent
  split
  · next hany =>
    simp only [List.any_eq_true, beq_iff_eq] at hany
    simp only [List.mem_map]
    constructor
    · rintro ⟨x, ⟨y, hy, rfl⟩, rfl⟩
      by_cases h : y.id = e.id
      · rw [if_pos h]; exact .inr rfl
      · rw [if_neg h]; exact .inl ⟨y, hy, rfl⟩
    · rintro (⟨x, hx, rfl⟩ | rfl)
      · by_cases h : x.id = e.id
        · exact ⟨e, ⟨x, hx, by rw [if_pos h]⟩, h.symm⟩
        · exact ⟨x, ⟨x, hx, by rw [if_neg h]⟩, rfl⟩
      · obtain ⟨x, hx, h⟩ := hany
        exact ⟨e, ⟨x, hx, by rw [if_pos h]⟩, rfl⟩
  · simp only [List.mem_append, List.mem_singleton]
    constructor
    · rintro ⟨x, hx | rfl, rfl⟩
      · exact .inl ⟨x, hx, rfl⟩
      · exact .inr rfl
    · rintro (⟨x, hx, rfl⟩ | rfl)
      · exact ⟨x, .inl hx, rfl⟩
      · exact ⟨e, .inr rfl, rfl⟩

theorem mem_putEvent {m : List Event} {e x : Event} (hx : x ∈ putEvent m e) : x ∈ m ∨ x = e := by
  unfold putEvent at hx
  split at hx
  · simp only [List.mem_map] at hx
    obtain ⟨y, hy, rfl⟩ := hx
    by_cases h : y.id = e.id
    · rw [if_pos h]; exact .inr rfl
    · rw [if_neg h]; exact .inl hy
  · simpa using hx

theorem putEvent_nodup {m : List Event} {e : Event} (hm : (m.map Event.id).Nodup) : ((putEvent m e).map Event.id).Nodup := by
  unfold putEvent
  split
  · have : (m.map fun x => if x.id = e.id then e else x).map Event.id = m.map Event.id := by
      rw [List.map_map]
      apply List.map_congr_left
      intro x _
      by_cases h : x.id = e.id <;> simp [h]
    rw [this]; exact hm
  · next hany =>
    simp only [List.any_eq_true, beq_iff_eq, not_exists, not_and] at hany
    rw [List.map_append, List.nodup_append]
    refine ⟨hm, by simp, ?_⟩
    intro a ha b hb
    simp only [List.map_cons, List.map_nil, List.mem_singleton] at hb
    obtain ⟨x, hx, rfl⟩ := List.mem_map.1 ha
    rw [hb]; exact hany x hx

theorem foldl_putEvent (l m : List Event) (hm : (m.map Event.id).Nodup) :
    ((l.foldl putEvent m).map Event.id).Nodup ∧ (∀ x ∈ l.foldl putEvent m, x ∈ m ∨ x ∈ l) ∧
    ∀ i, (∃ x ∈ l.foldl putEvent m, x.id = i) ↔ (∃ x ∈ m, x.id = i) ∨ ∃ x ∈ l, x.id = i := by
  induction l generalizing m with
  | nil => simp [hm]
  | cons e l ih =>
    obtain ⟨h1, h2, h3⟩ := ih (putEvent m e) (putEvent_nodup hm)
    refine ⟨h1, ?_, ?_⟩
    · intro x hx
      rcases h2 x hx with h | h
      · rcases mem_putEvent h with h | rfl
        · exact .inl h
        · exact .inr (by simp)
      · exact .inr (by simp [h])
    · intro i
      rw [List.foldl_cons, h3, mem_putEvent_id]
      simp [or_assoc]

theorem mem_eventNodes {s : St} {x : Node} :
    x ∈ eventNodes env s ↔ Reach s.graph.kids none x ∨ ∃ d ∈ s.deleted, Reach s.graph.kids d x := by
  unfold eventNodes
  rw [List.mem_append, mem_walk_entity, List.mem_flatMap]
  simp only [mem_walk_entity]

theorem pending_iff {s : St} {e : Event} : Pending s e ↔ e ∈ (eventNodes env s).flatMap s.heap.eventsOf := by
  simp only [Pending, List.mem_flatMap, mem_eventNodes]

theorem evLe_total (a b : Event) : evLe a b ∨ evLe b a := by unfold evLe; omega
theorem evLe_trans (a b d : Event) (h1 : evLe a b) (h2 : evLe b d) : evLe a d := by unfold evLe at *; omega

instance : Std.Total evLe := ⟨evLe_total⟩
instance : IsTrans Event evLe := ⟨evLe_trans⟩

/-- **C29** The events collected by the final save are the pending ones: each ID exactly once, in creation order; with distinct IDs
exactly the pending events. -/
theorem C29_collected (s : St) :
    (collectEvents env s).Pairwise Before ∧ ((collectEvents env s).map Event.id).Nodup ∧
    (∀ e ∈ collectEvents env s, Pending s e) ∧ (∀ e, Pending s e → ∃ e' ∈ collectEvents env s, e'.id = e.id) ∧
    (UniqueIDs s → ∀ e, e ∈ collectEvents env s ↔ Pending s e) := by
  have hperm : (collectEvents env s).Perm (((eventNodes env s).flatMap s.heap.eventsOf).foldl putEvent []) :=
    List.perm_insertionSort _ _
  obtain ⟨h1, h2, h3⟩ := foldl_putEvent ((eventNodes env s).flatMap s.heap.eventsOf) [] (by simp)
  have hin : ∀ e ∈ collectEvents env s, Pending s e := by
    intro e he
    rcases h2 e (hperm.mem_iff.1 he) with h | h
    · simp at h
    · exact pending_iff.2 h
  have hout : ∀ e, Pending s e → ∃ e' ∈ collectEvents env s, e'.id = e.id := by
    intro e he
    obtain ⟨e', h4, h5⟩ := (h3 e.id).2 (.inr ⟨e, pending_iff.1 he, rfl⟩)
    exact ⟨e', hperm.mem_iff.2 h4, h5⟩
  refine ⟨List.pairwise_insertionSort evLe _, ?_, hin, hout, ?_⟩
  · exact (hperm.map Event.id).nodup_iff.2 h1
  · intro hu e
    refine ⟨hin e, fun he => ?_⟩
    obtain ⟨e', h4, h5⟩ := hout e he
    rw [← hu e' e (hin e' h4) he h5]; exact h4

/-- **C29** The collected events do not depend on map iteration order (nor on anything else of the environment). -/
theorem C29_order_independent (s : St) (hu : UniqueIDs s) (env' : Env) : collectEvents env s = collectEvents env' s := by
  obtain ⟨a1, a2, _, _, a5⟩ := C29_collected (env := env) s
  obtain ⟨b1, b2, _, _, b5⟩ := C29_collected (env := env') s
  have hperm : (collectEvents env s).Perm (collectEvents env' s) := by
    rw [List.perm_ext_iff_of_nodup a2.of_map b2.of_map]
    intro e; rw [a5 hu, b5 hu]
  refine hperm.eq_of_pairwise ?_ a1 b1
  intro a b ha hb h1 h2
  have hp := (a5 hu a).1 ha
  have hq := (b5 hu b).1 hb
  refine hu a b hp hq ?_
  unfold Before at h1 h2
  omega

/-! ## the body of a command -/

/-- calls after the body. -/
def Call.IsAfter : Call → Prop
  | .commit _ => True | .rollback _ => True | .busCommit _ => True | .busRollback _ => True
  | .unlock .. => True | .postSave .. => True | _ => False

theorem TxTail.isAfter {pend : Bool} {o rt : Option Result} {t : Trace} (h : TxTail env pend o t rt) : ∀ x ∈ t, x.IsAfter := by
  cases h <;> simp [Call.IsAfter]

/-- how the body stands in the whole command. -/
structure BodyOf (env : Env) (opts : Opts) (c : Cmd) (h : Heap) where
  keys : List Nat
  hk : c.Keys keys
  d : DoShape env (c.opts opts) c.main (atMain (c.opts opts) keys (.fresh h)) (doStage env (c.opts opts) c.main (atMain (c.opts opts) keys (.fresh h)))
  pre : Trace
  tail : Trace
  post : Trace
  rt : Option Result
  eq : (run env opts c h).2.trace = pre ++ ((.mainStart :: d.tm ++ .mainRet d.st :: (d.tsave ++ (d.tpers ++ d.tsend))) ++ (tail ++ post))
  hpre : ∀ x ∈ pre, (∃ k, x = .lock k .ok) ∨ x = .begin .ok
  htail : ∀ x ∈ tail, x.IsAfter
  hpost : ∀ x ∈ post, (∃ k st, x = .unlock k st) ∨ ∃ k st, x = .postSave k st
  htx : opts.withTransaction = true → TxTail env (busPending (c.opts opts) (doStage env (c.opts opts) c.main (atMain (c.opts opts) keys (.fresh h))).2)
    (doStage env (c.opts opts) c.main (atMain (c.opts opts) keys (.fresh h))).1 tail rt
  hplain : opts.withTransaction = false → tail = [] ∧ rt = (doStage env (c.opts opts) c.main (atMain (c.opts opts) keys (.fresh h))).1
  hres : ∀ r, (run env opts c h).1 = some r → rt = some r

theorem run_body (hm : ∃ x ∈ (run env opts c h).2.trace, x.IsBody opts.dryRun) : Nonempty (BodyOf env opts c h) := by
  obtain ⟨x, hx, hxb⟩ := hm
  rcases run_anatomy env opts c h with ⟨keys, hk, an⟩ | ⟨h1, h0⟩
  · generalize hT : (run env opts c h).2.trace = T at an hx
    generalize hR : (run env opts c h).1 = R at an
    cases an with
    | early _ _ he hres =>
      exfalso
      rcases he.noBody _ hx with ⟨_, _, rfl⟩ | ⟨_, _, rfl⟩ | ⟨_, _, rfl⟩ <;> simp [Call.IsBody] at hxb
    | plain body un posts _ b hn hw hbody hr hpp =>
      obtain ⟨d, rfl⟩ := doStage_body _ _ hbody
      refine ⟨⟨keys, hk, d, _, [], un ++ posts, _, hT, ?_, by simp, ?_, ?_, fun _ => ⟨rfl, rfl⟩, ?_⟩⟩
      · intro x hx; obtain ⟨k, _, rfl⟩ := List.mem_map.1 hx; exact .inl ⟨k, rfl⟩
      · intro x hx
        rcases List.mem_append.1 hx with hx | hx
        · exact .inl (hr.isUnlock x hx)
        · exact .inr (hpp.isPost x hx)
      · intro hw'; exact absurd hw (by rw [show (c.opts opts).withTransaction = true from hw']; simp)
      · intro r hr'
        rw [hR] at hr'
        have := hpp.result r hr'
        split at this
        · exact this
        · simp at this
    | tx body tail un posts rt _ b hn hw hbody ht hr hpp =>
      obtain ⟨d, rfl⟩ := doStage_body _ _ hbody
      refine ⟨⟨keys, hk, d, ((keys.insertionSort (· ≤ ·)).map fun k => Call.lock k .ok) ++ [.begin .ok], tail, un ++ posts, rt, ?_, ?_,
        ht.isAfter, ?_, fun _ => ht, ?_, ?_⟩⟩
      · rw [hT]; simp
      · intro x hx
        rcases List.mem_append.1 hx with hx | hx
        · obtain ⟨k, _, rfl⟩ := List.mem_map.1 hx; exact .inl ⟨k, rfl⟩
        · exact .inr (by simpa using hx)
      · intro x hx
        rcases List.mem_append.1 hx with hx | hx
        · exact .inl (hr.isUnlock x hx)
        · exact .inr (hpp.isPost x hx)
      · intro hw'; exact absurd hw (by rw [show (c.opts opts).withTransaction = false from hw']; simp)
      · intro r hr'
        rw [hR] at hr'
        have := hpp.result r hr'
        split at this
        · exact this
        · simp at this
  · rw [h0] at hx; simp at hx

namespace BodyOf
variable (B : BodyOf env opts c h)

theorem eventCalls {x : Call} (hx : x ∈ (run env opts c h).2.trace) (he : isEventCall x = true) : x ∈ B.d.tpers ++ B.d.tsend := by
  rw [B.eq] at hx
  simp only [List.mem_append, List.mem_cons] at hx
  rcases hx with hx | ((rfl | hx) | rfl | hx | hx | hx) | hx | hx
  · rcases B.hpre x hx with ⟨_, rfl⟩ | rfl <;> simp [isEventCall] at he
  · simp [isEventCall] at he
  · have := B.d.mainCalls x hx; cases x <;> simp_all [Call.IsMain, Call.IsSave, isEventCall]
  · simp [isEventCall] at he
  · exfalso
    obtain ⟨sh⟩ := B.d.save
    have hh := sh.eq ▸ hx
    simp only [List.mem_append] at hh
    rcases hh with h | h | h | h | h
    · have := sh.hb x h; cases x <;> simp_all [Call.IsHook, isEventCall]
    · have := sh.hi x h; cases x <;> simp_all [Call.IsNewID, isEventCall]
    · have := sh.hc x h; cases x <;> simp_all [Call.IsConv, isEventCall]
    · have := sh.he x h; cases x <;> simp_all [Call.IsExec, isEventCall]
    · have := sh.ha x h; cases x <;> simp_all [Call.IsHook, isEventCall]
  · exact List.mem_append_left _ hx
  · exact List.mem_append_right _ hx
  · have := B.htail x hx; cases x <;> simp_all [Call.IsAfter, isEventCall]
  · rcases B.hpost x hx with ⟨_, _, rfl⟩ | ⟨_, _, rfl⟩ <;> simp [isEventCall] at he

theorem tsend_isSend : ∀ x ∈ B.d.tsend, x.IsSend opts.dryRun := by
  intro x hx
  rcases B.d.send with ⟨h1, _⟩ | ⟨es, st, b, _, h1, _⟩
  · rw [h1] at hx; simp at hx
  · exact h1.isSend x hx

theorem handover {x : Call} (hx : x ∈ (run env opts c h).2.trace) (he : isHandover x = true) : x ∈ B.d.tsend := by
  have := B.eventCalls hx (by cases x <;> simp_all [isHandover, isEventCall])
  rcases List.mem_append.1 this with h | h
  · have := B.d.pers x h; cases x <;> simp_all [isHandover, Call.IsEvPersist]
  · exact h

theorem noEv : (∀ x ∈ B.pre, isEventCall x = false) ∧ (∀ x ∈ B.d.tm, isEventCall x = false) ∧ (∀ x ∈ B.d.tsave, isEventCall x = false) ∧
    (∀ x ∈ B.d.tpers, isHandover x = false) ∧ (∀ x ∈ B.tail, isEventCall x = false) ∧ (∀ x ∈ B.post, isEventCall x = false) := by
  refine ⟨?_, ?_, ?_, ?_, ?_, ?_⟩ <;> intro x hx
  · rcases B.hpre x hx with ⟨_, rfl⟩ | rfl <;> rfl
  · have := B.d.mainCalls x hx; cases x <;> simp_all [Call.IsMain, Call.IsSave, isEventCall]
  · obtain ⟨sh⟩ := B.d.save
    have hh := sh.eq ▸ hx
    simp only [List.mem_append] at hh
    rcases hh with h | h | h | h | h
    · have := sh.hb x h; cases x <;> simp_all [Call.IsHook, isEventCall]
    · have := sh.hi x h; cases x <;> simp_all [Call.IsNewID, isEventCall]
    · have := sh.hc x h; cases x <;> simp_all [Call.IsConv, isEventCall]
    · have := sh.he x h; cases x <;> simp_all [Call.IsExec, isEventCall]
    · have := sh.ha x h; cases x <;> simp_all [Call.IsHook, isEventCall]
  · have := B.d.pers x hx; cases x <;> simp_all [isHandover, Call.IsEvPersist]
  · have := B.htail x hx; cases x <;> simp_all [Call.IsAfter, isEventCall]
  · rcases B.hpost x hx with ⟨_, _, rfl⟩ | ⟨_, _, rfl⟩ <;> rfl

theorem ev_hand {x : Call} (h : isEventCall x = false) : isHandover x = false := by cases x <;> simp_all [isEventCall, isHandover]

theorem handed_eq : handed (run env opts c h).2.trace = handed B.d.tsend := by
  have hz : ∀ t : Trace, (∀ x ∈ t, isHandover x = false) → handed t = [] := by
    intro t ht
    unfold handed
    rw [List.flatMap_eq_nil_iff]
    intro x hx
    have := ht x hx
    cases x <;> simp_all [isHandover]
  have happ : ∀ a b : Trace, handed (a ++ b) = handed a ++ handed b := by intro a b; simp [handed]
  have hcons : ∀ (x : Call) (b : Trace), isHandover x = false → handed (x :: b) = handed b := by
    intro x b hx; cases x <;> simp_all [handed, isHandover]
  obtain ⟨h1, h2, h3, h4, h5, h6⟩ := B.noEv
  rw [B.eq, happ, happ, happ, happ, hcons _ _ rfl, hcons _ _ rfl]
  simp only [happ, hz _ fun x hx => ev_hand (h1 x hx), hz _ fun x hx => ev_hand (h2 x hx), hz _ fun x hx => ev_hand (h3 x hx), hz _ h4,
    hz _ fun x hx => ev_hand (h5 x hx), hz _ fun x hx => ev_hand (h6 x hx), List.nil_append, List.append_nil]

end BodyOf

/-- a command ending without error and break has a body, and its `do` ended so. -/
theorem clean_body {r : Result} (hr : (run env opts c h).1 = some r) (hc : r.clean) :
    ∃ B : BodyOf env opts c h, ∃ r', (doStage env (c.opts opts) c.main (atMain (c.opts opts) B.keys (.fresh h))).1 = some r' ∧ r'.clean := by
  have hm : ∃ x ∈ (run env opts c h).2.trace, x.IsBody opts.dryRun := by
    rcases run_anatomy env opts c h with ⟨keys, hk, an⟩ | ⟨h1, h0⟩
    · rw [hr] at an
      generalize (run env opts c h).2.trace = T at an
      cases an with
      | early _ _ he hres => have := (hres r rfl).1; rw [hc.1] at this; simp at this
      | plain body un posts _ b hn hw hbody hr hpp =>
        obtain ⟨d, rfl⟩ := doStage_body _ _ hbody
        exact ⟨.mainStart, by simp, trivial⟩
      | tx body tail un posts rt _ b hn hw hbody ht hr hpp =>
        obtain ⟨d, rfl⟩ := doStage_body _ _ hbody
        exact ⟨.mainStart, by simp, trivial⟩
    · exfalso
      rcases h1 with ⟨e, hi⟩ | hi <;> unfold run at hr <;> rw [hi] at hr
      · simp only [Option.some.injEq] at hr
        exact resultErrOrBreak_not_clean e (hr ▸ hc)
      · simp at hr
  obtain ⟨B⟩ := run_body hm
  refine ⟨B, ?_⟩
  have hrt := B.hres r hr
  cases hw : opts.withTransaction with
  | false => exact ⟨r, by rw [← (B.hplain hw).2, hrt], hc⟩
  | true =>
    have ht := B.htx hw
    rw [hrt] at ht
    generalize (doStage env (c.opts opts) c.main (atMain (c.opts opts) B.keys (.fresh h))).1 = o at ht ⊢
    generalize hq : some r = q at ht
    generalize B.tail = tl at ht
    clear hrt hr
    cases ht <;> simp_all [Result.clean]

theorem filter_eq_of_any {es : List Event} {f : Event → Bool} (h : (es.any fun e => !f e) = false) : es.filter f = es := by
  rw [List.filter_eq_self]
  intro e he
  rw [List.any_eq_false] at h
  simpa using h e he

theorem SendRun.handed_ok {es : List Event} {t : Trace} {st : Stat} {b : Option Bool} (h : SendRun env opts es t st b)
    (hs : st = .ok) (hd : opts.dryRun = false) : (handed t).Perm es := by
  cases h with
  | noBus => simp at hs
  | dry _ h => rw [hd] at h; simp at h
  | all => simp [handed]
  | beginFail _ _ _ _ _ _ h => exact absurd hs h
  | onlyTx _ _ _ _ _ h2 => simp [handed, filter_eq_of_any h2]
  | onlyNormal _ _ _ _ h1 h2 =>
    have : (es.filter fun e => !e.tx) = es := filter_eq_of_any (by simpa using h1)
    simp [handed, this]
  | both =>
    simp only [handed, List.flatMap_cons, List.flatMap_nil, List.append_nil]
    exact List.filter_append_perm _ _
  | nothing _ _ _ h => simp [handed, h]

theorem SendRun.handed_mem {es : List Event} {t : Trace} {st : Stat} {b : Option Bool} (h : SendRun env opts es t st b) :
    ∀ e ∈ handed t, e ∈ es := by
  cases h <;> intro e he <;> simp [handed] at he <;> simp_all
  rcases he with h | h <;> exact h.1

theorem SendRun.sub {es : List Event} {t : Trace} {st : Stat} {b : Option Bool} (h : SendRun env opts es t st b) :
    ∀ l st', (Call.dispatch l st' ∈ t ∨ Call.dispatchBegin l st' ∈ t) → l.Sublist es := by
  cases h <;> intro l st' hm <;> simp at hm
  case both => rcases hm with hm | hm <;> (obtain ⟨rfl, _⟩ := hm; exact List.filter_sublist)
  all_goals (obtain ⟨rfl, _⟩ := hm)
  all_goals first
    | exact List.Sublist.refl _
    | exact List.filter_sublist

theorem SendRun.halts {es : List Event} {t : Trace} {st : Stat} {b : Option Bool} (h : SendRun env opts es t st b) :
    ∀ x ∈ t.dropLast, x.Good := by
  cases h <;> simp [Call.Good]

/-- **C29** A command ending without error and break, not in dry run, hands to the bus exactly the pending events of its final state (after the final
save): every handed event is pending, every pending ID is handed, no ID twice, and each handover lists its events in creation order. -/
theorem C29_dispatched {r : Result} (hr : (run env opts c h).1 = some r) (hc : r.clean) (hd : opts.dryRun = false) :
    ∃ keys s2, c.Keys keys ∧
      persist env (c.opts opts) (callMain env (c.opts opts) c.main (atMain (c.opts opts) keys (.fresh h))).2 = (.ok (), s2) ∧
      (∀ e ∈ handed (run env opts c h).2.trace, Pending s2 e) ∧
      (∀ e, Pending s2 e → ∃ e' ∈ handed (run env opts c h).2.trace, e'.id = e.id) ∧
      (UniqueIDs s2 → ∀ e, e ∈ handed (run env opts c h).2.trace ↔ Pending s2 e) ∧
      ((handed (run env opts c h).2.trace).map Event.id).Nodup ∧
      (∀ es st, (Call.dispatch es st ∈ (run env opts c h).2.trace ∨ Call.dispatchBegin es st ∈ (run env opts c h).2.trace) →
        es.Pairwise Before) := by
  obtain ⟨B, r', hr', hc'⟩ := clean_body hr hc
  obtain ⟨s2, st', hp, F, hst⟩ := B.d.fin (.inr ⟨r', hr', hc'⟩)
  have hst := hst ⟨r', hr', hc'⟩
  obtain ⟨c1, c2, c3, c4, c5⟩ := C29_collected (env := env) s2
  have hperm : (handed (run env opts c h).2.trace).Perm (collectEvents env s2) := by
    rw [B.handed_eq]
    by_cases he : collectEvents env s2 = []
    · rcases F.send with ⟨h1, _⟩ | ⟨_, _, h1, _⟩
      · rw [h1, he]; simp [handed]
      · exact absurd he h1
    · obtain ⟨b, hb⟩ := F.sendOk hst he
      exact hb.handed_ok rfl hd
  refine ⟨B.keys, s2, B.hk, hp, fun e he => c3 e (hperm.mem_iff.1 he), ?_, ?_, ?_, ?_⟩
  · intro e he; obtain ⟨e', h1, h2⟩ := c4 e he; exact ⟨e', hperm.mem_iff.2 h1, h2⟩
  · intro hu e; rw [hperm.mem_iff, c5 hu]
  · exact (hperm.map Event.id).nodup_iff.2 c2
  · intro es st hm
    have hm' : Call.dispatch es st ∈ B.d.tsend ∨ Call.dispatchBegin es st ∈ B.d.tsend := by
      rcases hm with hm | hm
      · exact .inl (B.handover hm rfl)
      · exact .inr (B.handover hm rfl)
    have hsub : es.Sublist (collectEvents env s2) := by
      rcases F.send with ⟨h1, _⟩ | ⟨_, _, _, h1, _⟩
      · rw [h1] at hm'; simp at hm'
      · exact h1.sub es st hm'
    exact c1.sublist hsub

/-! ## C30 -/

theorem isEventCall_body {x : Call} (hx : x ∈ (run env opts c h).2.trace) (he : isEventCall x = true) : Nonempty (BodyOf env opts c h) := by
  -- the call is a body call, since nothing else is an event call
  rcases run_anatomy env opts c h with ⟨keys, hk, an⟩ | ⟨h1, h0⟩
  · have key : ∃ y ∈ (run env opts c h).2.trace, y.IsBody opts.dryRun := by
      generalize (run env opts c h).2.trace = T at an hx
      generalize (run env opts c h).1 = R at an
      cases an with
      | early _ _ h' hres => rcases h'.noBody _ hx with ⟨_, _, rfl⟩ | ⟨_, _, rfl⟩ | ⟨_, _, rfl⟩ <;> simp [isEventCall] at he
      | plain body un posts _ b hn hw hbody hr hpp =>
        obtain ⟨d, rfl⟩ := doStage_body _ _ hbody
        exact ⟨.mainStart, by simp, trivial⟩
      | tx body tail un posts rt _ b hn hw hbody ht hr hpp =>
        obtain ⟨d, rfl⟩ := doStage_body _ _ hbody
        exact ⟨.mainStart, by simp, trivial⟩
    exact run_body key
  · rw [h0] at hx; simp at hx

/-- **C30** Whenever an event is turned into a row or handed to the bus, `Main` has returned nil and every call since then — hooks, IDs,
conversions, writes — succeeded; no entity hook, conversion or ID generation follows, and after a handover no write follows. -/
theorem C30_events_after_writes {a b : Trace} {x : Call} (hT : (run env opts c h).2.trace = a ++ x :: b) (he : isEventCall x = true) :
    (∃ a0 f, a = a0 ++ .mainRet .ok :: f ∧ ∀ y ∈ f, y.Good) ∧
    (∀ y ∈ b, (∀ n p o s u, y ≠ .conv n p o s u) ∧ (∀ s, y ≠ .newID s) ∧ (∀ n k s, y ≠ .hook n k s)) ∧
    (isHandover x = true → ∀ y ∈ b, ∀ w s, y ≠ .exec w s) := by
  have hx : x ∈ (run env opts c h).2.trace := by rw [hT]; simp
  obtain ⟨B⟩ := isEventCall_body hx he
  obtain ⟨h1, h2, h3, h4, h5, h6⟩ := B.noEv
  have hsplit : (B.pre ++ (.mainStart :: B.d.tm ++ .mainRet B.d.st :: B.d.tsave)) ++ ((B.d.tpers ++ B.d.tsend) ++ (B.tail ++ B.post)) =
      a ++ x :: b := by rw [← hT, B.eq]; simp
  have hno : ∀ t : Trace, (∀ y ∈ t, isEventCall y = false) → x ∉ t := by
    intro t ht hm; rw [ht x hm] at he; simp at he
  obtain ⟨m1, m2, e1, e2, e3⟩ := split_mid hsplit
    (hno _ (by
      intro y hy
      simp only [List.mem_append, List.mem_cons] at hy
      rcases hy with hy | (rfl | hy) | rfl | hy
      · exact h1 y hy
      · rfl
      · exact h2 y hy
      · rfl
      · exact h3 y hy))
    (hno _ (by
      intro y hy
      rcases List.mem_append.1 hy with hy | hy
      · exact h5 y hy
      · exact h6 y hy))
  have hne : B.d.tpers ++ B.d.tsend ≠ [] := by rw [e1]; simp
  have hst : B.d.st = .ok := (B.d.stop (by intro h; exact hne (List.append_eq_nil_iff.1 h).2)).1
  have hsg := B.d.good1 hne
  -- calls before `x` in persisting/sending are good
  have hgood : ∀ y ∈ m1, y.Good := by
    intro y hy
    rcases List.append_eq_append_iff.1 e1 with ⟨u, q1, q2⟩ | ⟨u, q1, q2⟩
    · -- x in tsend; m1 = tpers ++ u
      have hts : B.d.tsend ≠ [] := by rw [q2]; simp
      rw [q1] at hy
      rcases List.mem_append.1 hy with hy | hy
      · exact B.d.good2 hts y hy
      · rcases B.d.send with ⟨h7, _⟩ | ⟨es, st, bb, _, h7, _⟩
        · exact absurd h7 hts
        · rw [q2] at h7
          exact h7.halts y (by rw [List.dropLast_append_of_ne_nil (by simp)]; exact List.mem_append_left _ hy)
    · cases u with
      | nil =>
        -- x is the first of tsend
        rw [List.nil_append] at q2
        have hts : B.d.tsend ≠ [] := by rw [← q2]; simp
        rw [List.append_nil] at q1
        exact B.d.good2 hts y (q1 ▸ hy)
      | cons z u =>
        rw [List.cons_append, List.cons.injEq] at q2
        obtain ⟨rfl, _⟩ := q2
        -- x in tpers, preceded by event conversions only
        obtain ⟨s2, st', hp, F, hst'⟩ := B.d.fin (.inl hne)
        refine F.persHalts y ?_
        rw [q1, List.dropLast_append_of_ne_nil (by simp)]
        exact List.mem_append_left _ hy
  refine ⟨⟨B.pre ++ (.mainStart :: B.d.tm), B.d.tsave ++ m1, by rw [e2, hst]; simp, ?_⟩, ?_, ?_⟩
  · intro y hy
    rcases List.mem_append.1 hy with hy | hy
    · exact hsg y hy
    · exact hgood y hy
  · intro y hy
    rw [e3] at hy
    simp only [List.mem_append] at hy
    rcases hy with hy | hy | hy
    · have : y ∈ B.d.tpers ++ B.d.tsend := by rw [e1]; simp [hy]
      rcases List.mem_append.1 this with h7 | h7
      · have := B.d.pers y h7; revert this; cases y <;> simp [Call.IsEvPersist]
      · have := B.tsend_isSend y h7; revert this; cases y <;> simp [Call.IsSend]
    · have := B.htail y hy; revert this; cases y <;> simp [Call.IsAfter]
    · rcases B.hpost y hy with ⟨_, _, rfl⟩ | ⟨_, _, rfl⟩ <;> simp
  · intro hh y hy w s
    rw [e3] at hy
    simp only [List.mem_append] at hy
    rcases hy with hy | hy | hy
    · -- x in tsend, so y too
      have hxs : ∃ u, B.d.tsend = u ++ x :: m2 := by
        rcases List.append_eq_append_iff.1 e1 with ⟨u, q1, q2⟩ | ⟨u, q1, q2⟩
        · exact ⟨u, q2⟩
        · cases u with
          | nil => exact ⟨[], q2.symm⟩
          | cons z u =>
            rw [List.cons_append, List.cons.injEq] at q2
            obtain ⟨rfl, _⟩ := q2
            have := h4 x (by rw [q1]; simp)
            rw [hh] at this; simp at this
      obtain ⟨u, hu⟩ := hxs
      have := B.tsend_isSend y (by rw [hu]; simp [hy])
      revert this; cases y <;> simp [Call.IsSend]
    · have := B.htail y hy; revert this; cases y <;> simp [Call.IsAfter]
    · rcases B.hpost y hy with ⟨_, _, rfl⟩ | ⟨_, _, rfl⟩ <;> simp

end Ddd
