import Mathlib.Data.List.Nodup
import Verif.Spec.MemBus
/-!
# C51: memory event bus
-/
set_option linter.unusedVariables false
set_option linter.unusedSimpArgs false
set_option linter.unusedSectionVars false
namespace Ddd.MemBus

variable {E : Type} [DecidableEq E]

theorem sent_sent (log : List (Log E)) (n e) : sent (.sent n e :: log) = sent log ++ [(n, e)] := by simp [sent]
theorem sent_other (log : List (Log E)) (x : Log E) (h : ∀ n e, x ≠ .sent n e) : sent (x :: log) = sent log := by
  cases x with
  | sent n e => exact absurd rfl (h n e)
  | _ => simp [sent]
theorem handled_handled (log : List (Log E)) (n e) : handled (.handled n e :: log) = handled log ++ [(n, e)] := by simp [handled]
theorem handled_other (log : List (Log E)) (x : Log E) (h : ∀ n e, x ≠ .handled n e) : handled (x :: log) = handled log := by
  cases x with
  | handled n e => exact absurd rfl (h n e)
  | _ => simp [handled]

/-- Between what entered and what was handled there is exactly the content of the channel. -/
theorem C51_flow {cap : Nat} {s : State E} (h : Reachable cap s) : sent s.log = handled s.log ++ s.buf := by
  induction h with
  | init => simp [State.init, sent, handled]
  | @step a b hr hst ih =>
    cases hst with
    | dispatch es => simpa [sent_other, handled_other] using ih
    | send n e es hm hc => simp [sent_sent, handled_other, ih]
    | direct n e es hm hb hs hi =>
      simp only [sent_other, sent_sent, handled_other, handled_handled, ne_eq, reduceCtorEq, not_false_eq_true, implies_true, ih, hb]
      simp
    | ret n hm => simpa [sent_other, handled_other] using ih
    | start => exact ih
    | take n e rest hb hs hi => simp [sent_other, handled_handled, ih, hb]
    | done => simpa [sent_other, handled_other] using ih

/-- C51: events reach the callback in the order in which they entered the channel, each exactly once: what was handled is a prefix of what entered. -/
theorem C51_order {cap : Nat} {s : State E} (h : Reachable cap s) : handled s.log <+: sent s.log := ⟨s.buf, (C51_flow h).symm⟩

/-- C51: at most `cap` events are waiting: entered and not yet given to the callback. -/
theorem C51_capacity {cap : Nat} {s : State E} (h : Reachable cap s) : (sent s.log).length - (handled s.log).length ≤ cap := by
  have hb : s.buf.length ≤ cap := by
    induction h with
    | init => simp [State.init]
    | @step a b hr hst ih =>
      cases hst with
      | send n e es hm hc => simp; omega
      | direct n e es hm hb hs hi => simpa using ih
      | take n e rest hb hs hi => rw [hb] at ih; simp at ih ⊢; omega
      | dispatch | ret | start | done => exact ih
  rw [C51_flow h, List.length_append]
  omega

/-- The calls under way are numbered apart, each has sent a part of what it was given. -/
structure Inv (s : State E) : Prop where
  fresh : ∀ x ∈ s.calls, x.1 < s.nextCall
  nodup : (s.calls.map Prod.fst).Nodup
  logFresh : ∀ n es, .dispatched n es ∈ s.log → n < s.nextCall
  unique : ∀ n es es', .dispatched n es ∈ s.log → .dispatched n es' ∈ s.log → es = es'
  open_ : ∀ x ∈ s.calls, .dispatched x.1 (ofCall x.1 (sent s.log) ++ x.2) ∈ s.log
  closed : ∀ n es, .dispatched n es ∈ s.log → ofCall n (sent s.log) <+: es
  returned : ∀ n, .returned n ∈ s.log → (∀ x ∈ s.calls, x.1 ≠ n) ∧ .dispatched n (ofCall n (sent s.log)) ∈ s.log
  noSent : ∀ x ∈ sent s.log, x.1 < s.nextCall
  gone : ∀ n es, .dispatched n es ∈ s.log → (∃ x ∈ s.calls, x.1 = n) ∨ .returned n ∈ s.log

theorem ofCall_append (n : Nat) (l : List (Nat × E)) (m : Nat) (e : E) : ofCall n (l ++ [(m, e)]) = if m = n then ofCall n l ++ [e] else ofCall n l := by
  by_cases h : m = n <;> simp [ofCall, h]

/-- an event of a call enters the channel -/
theorem inv_send {s s' : State E} (hi : Inv s) (n : Nat) (e : E) (es : List E) (h : (n, e :: es) ∈ s.calls) (hc : s'.calls = (n, es) :: s.calls.erase (n, e :: es)) (hn : s'.nextCall = s.nextCall)
    (hs : sent s'.log = sent s.log ++ [(n, e)]) (hd : ∀ n es, .dispatched n es ∈ s'.log ↔ .dispatched n es ∈ s.log) (hr : ∀ n, .returned n ∈ s'.log ↔ .returned n ∈ s.log) : Inv s' := by
  obtain ⟨h1, h2, h3, h4, h5, h6, h7, h8, h9⟩ := hi
  have hsub : ∀ x ∈ s.calls.erase (n, e :: es), x ∈ s.calls ∧ x.1 ≠ n := by
    intro x hx
    have hx' := List.mem_of_mem_erase hx
    refine ⟨hx', ?_⟩
    intro he
    have : x = (n, e :: es) := List.inj_on_of_nodup_map h2 hx' h he
    rw [this] at hx
    exact (List.Nodup.not_mem_erase (List.Nodup.of_map _ h2)) hx
  have hself := h5 _ h
  refine ⟨?_, ?_, ?_, ?_, ?_, ?_, ?_, ?_, ?_⟩
  · rw [hc, hn]
    intro x hx
    rcases List.mem_cons.mp hx with rfl | hx
    · exact h1 (n, e :: es) h
    · exact h1 x (hsub x hx).1
  · rw [hc]
    simp only [List.map_cons, List.nodup_cons, List.mem_map]
    exact ⟨fun ⟨x, hx, he⟩ => (hsub x hx).2 he, h2.sublist (List.erase_sublist.map _)⟩
  · intro m ms hm; rw [hn]; exact h3 m ms ((hd _ _).mp hm)
  · intro m ms ms' hm hm'; exact h4 m ms ms' ((hd _ _).mp hm) ((hd _ _).mp hm')
  · rw [hc]
    intro x hx
    rw [hs, ofCall_append, hd]
    rcases List.mem_cons.mp hx with rfl | hx
    · simpa using hself
    · rw [if_neg (Ne.symm (hsub x hx).2)]; exact h5 x (hsub x hx).1
  · intro m ms hm
    rw [hd] at hm
    rw [hs, ofCall_append]
    split
    · rename_i he
      subst he
      rw [h4 _ _ _ hm hself]
      exact ⟨es, by simp⟩
    · exact h6 m ms hm
  · intro m hm
    rw [hr] at hm
    obtain ⟨g1, g2⟩ := h7 m hm
    have hne : n ≠ m := g1 _ h
    refine ⟨?_, ?_⟩
    · rw [hc]
      intro x hx
      rcases List.mem_cons.mp hx with rfl | hx
      · exact hne
      · exact g1 x (hsub x hx).1
    · rw [hs, ofCall_append, if_neg hne, hd]; exact g2
  · rw [hs, hn]
    intro x hx
    rcases List.mem_append.mp hx with hx | hx
    · exact h8 x hx
    · simp at hx; subst hx; exact h1 _ h
  · intro m ms hm
    rw [hd] at hm
    rw [hr, hc]
    rcases h9 m ms hm with ⟨x, hx, rfl⟩ | hm
    · left
      by_cases he : x = (n, e :: es)
      · subst he; exact ⟨_, List.mem_cons_self, rfl⟩
      · exact ⟨x, List.mem_cons_of_mem _ ((List.mem_erase_of_ne he).mpr hx), rfl⟩
    · exact .inr hm

/-- nothing but the consumer moves -/
theorem inv_quiet {s s' : State E} (hi : Inv s) (hc : s'.calls = s.calls) (hn : s'.nextCall = s.nextCall) (hs : sent s'.log = sent s.log)
    (hd : ∀ n es, .dispatched n es ∈ s'.log ↔ .dispatched n es ∈ s.log) (hr : ∀ n, .returned n ∈ s'.log ↔ .returned n ∈ s.log) : Inv s' := by
  obtain ⟨h1, h2, h3, h4, h5, h6, h7, h8, h9⟩ := hi
  constructor <;> simp only [hc, hn, hs, hd, hr] <;> assumption

theorem inv_reachable {cap : Nat} {s : State E} (h : Reachable cap s) : Inv s := by
  induction h with
  | init => constructor <;> simp [State.init, sent]
  | @step a b hr hst ih =>
    cases hst with
    | send n e es hm hc => exact inv_send ih n e es hm rfl rfl (sent_sent _ _ _) (by simp) (by simp)
    | direct n e es hm hb hs hi => exact inv_send ih n e es hm rfl rfl (by rw [sent_other _ _ (by simp), sent_sent]) (by simp) (by simp)
    | start => exact inv_quiet ih rfl rfl rfl (by simp) (by simp)
    | done => exact inv_quiet ih rfl rfl (sent_other _ _ (by simp)) (by simp) (by simp)
    | take n e rest hb hs hi => exact inv_quiet ih rfl rfl (sent_other _ _ (by simp)) (by simp) (by simp)
    | dispatch es =>
      obtain ⟨h1, h2, h3, h4, h5, h6, h7, h8, h9⟩ := ih
      have hs : sent (Log.dispatched a.nextCall es :: a.log) = sent a.log := sent_other _ _ (by simp)
      have hempty : ofCall a.nextCall (sent a.log) = [] := by
        simp only [ofCall, List.map_eq_nil_iff, List.filter_eq_nil_iff]
        intro x hx
        have := h8 x hx
        simp; omega
      refine ⟨?_, ?_, ?_, ?_, ?_, ?_, ?_, ?_, ?_⟩
      · intro x hx
        show x.1 < a.nextCall + 1
        rcases List.mem_cons.mp hx with rfl | hx
        · simp
        · have := h1 x hx; omega
      · simp only [List.map_cons, List.nodup_cons, List.mem_map]
        refine ⟨?_, h2⟩
        rintro ⟨x, hx, he⟩
        have := h1 x hx; omega
      · intro n ns hm
        show n < a.nextCall + 1
        rcases List.mem_cons.mp hm with hm | hm
        · simp only [Log.dispatched.injEq] at hm; omega
        · have := h3 n ns hm; omega
      · intro n ns ns' hm hm'
        rcases List.mem_cons.mp hm with hm | hm <;> rcases List.mem_cons.mp hm' with hm' | hm'
        · simp only [Log.dispatched.injEq] at hm hm'; rw [hm.2, hm'.2]
        · simp only [Log.dispatched.injEq] at hm
          have := h3 _ _ hm'; omega
        · simp only [Log.dispatched.injEq] at hm'
          have := h3 _ _ hm; omega
        · exact h4 n ns ns' hm hm'
      · intro x hx
        rw [hs]
        rcases List.mem_cons.mp hx with rfl | hx
        · simp [hempty]
        · exact List.mem_cons_of_mem _ (h5 x hx)
      · intro n ns hm
        rw [hs]
        rcases List.mem_cons.mp hm with hm | hm
        · simp only [Log.dispatched.injEq] at hm
          rw [hm.1, hempty]; simp
        · exact h6 n ns hm
      · intro n hm
        have hm' : Log.returned n ∈ a.log := by simpa using hm
        obtain ⟨g1, g2⟩ := h7 n hm'
        refine ⟨?_, by rw [hs]; exact List.mem_cons_of_mem _ g2⟩
        intro x hx
        rcases List.mem_cons.mp hx with rfl | hx
        · have := h3 _ _ g2
          simp only; omega
        · exact g1 x hx
      · rw [hs]
        intro x hx
        have := h8 x hx
        show x.1 < a.nextCall + 1
        omega
      · intro n ns hm
        rcases List.mem_cons.mp hm with hm | hm
        · simp only [Log.dispatched.injEq] at hm
          exact .inl ⟨_, List.mem_cons_self, hm.1.symm⟩
        · rcases h9 n ns hm with ⟨x, hx, he⟩ | hr
          · exact .inl ⟨x, List.mem_cons_of_mem _ hx, he⟩
          · exact .inr (List.mem_cons_of_mem _ hr)
    | ret n hm =>
      obtain ⟨h1, h2, h3, h4, h5, h6, h7, h8, h9⟩ := ih
      have hs : sent (Log.returned n :: a.log) = sent a.log := sent_other _ _ (by simp)
      have hsub : ∀ x ∈ a.calls.erase (n, []), x ∈ a.calls ∧ x.1 ≠ n := by
        intro x hx
        have hx' := List.mem_of_mem_erase hx
        refine ⟨hx', ?_⟩
        intro he
        have : x = (n, []) := List.inj_on_of_nodup_map h2 hx' hm he
        rw [this] at hx
        exact (List.Nodup.not_mem_erase (List.Nodup.of_map _ h2)) hx
      have hd : ∀ m ms, Log.dispatched m ms ∈ (Log.returned n :: a.log) ↔ Log.dispatched m ms ∈ a.log := by simp
      refine ⟨fun x hx => h1 x (hsub x hx).1, h2.sublist (List.erase_sublist.map _), ?_, ?_, ?_, ?_, ?_, ?_, ?_⟩
      · intro m ms h; exact h3 m ms ((hd _ _).mp h)
      · intro m ms ms' h h'; exact h4 m ms ms' ((hd _ _).mp h) ((hd _ _).mp h')
      · intro x hx; rw [hs]; exact (hd _ _).mpr (h5 x (hsub x hx).1)
      · intro m ms h; rw [hs]; exact h6 m ms ((hd _ _).mp h)
      · intro m h
        rw [hs]
        rcases List.mem_cons.mp h with h | h
        · simp only [Log.returned.injEq] at h
          subst h
          refine ⟨fun x hx => (hsub x hx).2, (hd _ _).mpr ?_⟩
          simpa using h5 _ hm
        · obtain ⟨g1, g2⟩ := h7 m h
          exact ⟨fun x hx => g1 x (hsub x hx).1, (hd _ _).mpr g2⟩
      · rw [hs]; exact h8
      · intro m ms h
        rcases h9 m ms ((hd _ _).mp h) with ⟨x, hx, rfl⟩ | h
        · by_cases he : x = (n, [])
          · subst he; exact .inr List.mem_cons_self
          · exact .inl ⟨x, (List.mem_erase_of_ne he).mpr hx, rfl⟩
        · exact .inr (List.mem_cons_of_mem _ h)

/-- C51: the events of one `Dispatch` enter in the order given, whatever other calls do meanwhile; none is doubled or made up. -/
theorem C51_call_order {cap : Nat} {s : State E} (h : Reachable cap s) (n : Nat) (es : List E) (hd : .dispatched n es ∈ s.log) : ofCall n (sent s.log) <+: es := (inv_reachable h).closed n es hd

/-- C51: and so they reach the callback. -/
theorem C51_call_handled {cap : Nat} {s : State E} (h : Reachable cap s) (n : Nat) (es : List E) (hd : .dispatched n es ∈ s.log) : ofCall n (handled s.log) <+: es := by
  refine List.IsPrefix.trans ?_ (C51_call_order h n es hd)
  obtain ⟨b, hb⟩ := C51_order h
  refine ⟨ofCall n b, ?_⟩
  rw [← hb]
  simp [ofCall]

/-- C51: when `Dispatch` returned, all its events have entered. -/
theorem C51_returned {cap : Nat} {s : State E} (h : Reachable cap s) (n : Nat) (es : List E) (hd : .dispatched n es ∈ s.log) (hr : .returned n ∈ s.log) : ofCall n (sent s.log) = es :=
  (inv_reachable h).unique n _ _ ((inv_reachable h).returned n hr).2 hd

/-- C51: only dispatched events are handled. -/
theorem C51_handled_given {cap : Nat} {s : State E} (h : Reachable cap s) (n : Nat) (e : E) (hh : .handled n e ∈ s.log) : ∃ es, .dispatched n es ∈ s.log ∧ e ∈ es := by
  have h1 : (n, e) ∈ handled s.log := by simp only [handled, List.mem_reverse, List.mem_filterMap]; exact ⟨_, hh, rfl⟩
  have h2 : (n, e) ∈ sent s.log := (C51_order h).subset h1
  have key : ∀ {s : State E}, Reachable cap s → ∀ x ∈ sent s.log, ∃ es, .dispatched x.1 es ∈ s.log := by
    intro s h
    induction h with
    | init => simp [State.init, sent]
    | @step a b hr hst ih =>
      intro x hx
      cases hst with
      | dispatch es =>
        rw [sent_other _ _ (by simp)] at hx
        obtain ⟨es', h⟩ := ih x hx
        exact ⟨es', List.mem_cons_of_mem _ h⟩
      | send m e' es hm hc =>
        rw [sent_sent] at hx
        rcases List.mem_append.mp hx with hx | hx
        · obtain ⟨es', h⟩ := ih x hx; exact ⟨es', List.mem_cons_of_mem _ h⟩
        · simp at hx; subst hx; exact ⟨_, List.mem_cons_of_mem _ ((inv_reachable hr).open_ _ hm)⟩
      | direct m e' es hm hb hs hi =>
        rw [sent_other _ _ (by simp), sent_sent] at hx
        rcases List.mem_append.mp hx with hx | hx
        · obtain ⟨es', h⟩ := ih x hx; exact ⟨es', List.mem_cons_of_mem _ (List.mem_cons_of_mem _ h)⟩
        · simp at hx; subst hx; exact ⟨_, List.mem_cons_of_mem _ (List.mem_cons_of_mem _ ((inv_reachable hr).open_ _ hm))⟩
      | ret m hm =>
        rw [sent_other _ _ (by simp)] at hx
        obtain ⟨es', h⟩ := ih x hx; exact ⟨es', List.mem_cons_of_mem _ h⟩
      | take m e' rest hb hs hi =>
        rw [sent_other _ _ (by simp)] at hx
        obtain ⟨es', h⟩ := ih x hx; exact ⟨es', List.mem_cons_of_mem _ h⟩
      | start => exact ih x hx
      | done =>
        rw [sent_other _ _ (by simp)] at hx
        obtain ⟨es', h⟩ := ih x hx; exact ⟨es', List.mem_cons_of_mem _ h⟩
  obtain ⟨es, hes⟩ := key h _ h2
  refine ⟨es, hes, ?_⟩
  apply (C51_call_order h n es hes).subset
  simp only [ofCall, List.mem_map, List.mem_filter]
  exact ⟨(n, e), ⟨h2, by simp⟩, rfl⟩

/-- since the callback was called and has not returned, it is running -/
theorem busy_reachable {cap : Nat} {s : State E} (h : Reachable cap s) : ∀ n e l1 l2, s.log = l1 ++ .handled n e :: l2 → .finished ∉ l1 → s.busy = true := by
  induction h with
  | init => intro n e l1 l2 h; simp [State.init] at h
  | @step a b hr hst ih =>
    intro n e l1 l2 h hf
    have one : ∀ x, b.log = x :: a.log → (∀ n e, x ≠ .handled n e) → a.busy = true := by
      intro x hx hne
      rw [hx] at h
      cases l1 with
      | nil => simp at h; exact absurd h.1 (hne _ _)
      | cons y l1 =>
        simp only [List.cons_append, List.cons.injEq] at h
        exact ih n e l1 l2 h.2 (fun hm => hf (List.mem_cons_of_mem _ hm))
    cases hst with
    | dispatch => exact one _ rfl (by simp)
    | send => exact one _ rfl (by simp)
    | ret => exact one _ rfl (by simp)
    | direct => rfl
    | take => rfl
    | start => exact ih n e l1 l2 h hf
    | done hb =>
      cases l1 with
      | nil => simp at h
      | cons y l1 =>
        simp only [List.cons_append, List.cons.injEq] at h
        exact absurd (by rw [h.1]; exact List.mem_cons_self) hf

/-- C51: calls of the callback do not overlap: before an event is given to it, the call for the event before has returned. -/
theorem C51_serial {cap : Nat} {s : State E} (h : Reachable cap s) : ∀ n e n' e' l1 l2 l3, s.log = l1 ++ .handled n' e' :: (l2 ++ .handled n e :: l3) → .finished ∈ l2 := by
  induction h with
  | init => intro n e n' e' l1 l2 l3 h; simp [State.init] at h
  | @step a b hr hst ih =>
    intro n e n' e' l1 l2 l3 h
    have hbusy := busy_reachable hr
    have one : ∀ x, b.log = x :: a.log → (∀ n e, x ≠ .handled n e) → .finished ∈ l2 := by
      intro x hx hne
      rw [hx] at h
      cases l1 with
      | nil => simp at h; exact absurd h.1 (hne _ _)
      | cons y l1 =>
        simp only [List.cons_append, List.cons.injEq] at h
        exact ih _ _ _ _ _ _ _ h.2
    cases hst with
    | dispatch => exact one _ rfl (by simp)
    | send => exact one _ rfl (by simp)
    | ret => exact one _ rfl (by simp)
    | done => exact one _ rfl (by simp)
    | start => exact ih _ _ _ _ _ _ _ h
    | take m em rest hb hs hi =>
      cases l1 with
      | nil =>
        simp only [List.nil_append, List.cons.injEq] at h
        by_contra hf
        have := hbusy _ _ _ _ h.2 hf
        rw [hi] at this; cases this
      | cons y l1 =>
        simp only [List.cons_append, List.cons.injEq] at h
        exact ih _ _ _ _ _ _ _ h.2
    | direct m em es hm hb hs hi =>
      cases l1 with
      | nil =>
        simp only [List.nil_append, List.cons.injEq] at h
        by_contra hf
        cases l2 with
        | nil => simp at h
        | cons y l2 =>
          simp only [List.cons_append, List.cons.injEq] at h
          have := hbusy _ _ _ _ h.2.2 (fun hm => hf (List.mem_cons_of_mem _ hm))
          rw [hi] at this; cases this
      | cons y l1 =>
        simp only [List.cons_append, List.cons.injEq] at h
        cases l1 with
        | nil => simp at h
        | cons z l1 =>
          simp only [List.cons_append, List.cons.injEq] at h
          exact ih _ _ _ _ _ _ _ h.2.2

/-- C51: no call of `Dispatch` is lost: it is under way, with the rest of its events still to send, or has returned. -/
theorem C51_accounted {cap : Nat} {s : State E} (h : Reachable cap s) (n : Nat) (es : List E) (hd : .dispatched n es ∈ s.log) :
    (∃ rest, (n, rest) ∈ s.calls ∧ es = ofCall n (sent s.log) ++ rest) ∨ .returned n ∈ s.log := by
  rcases (inv_reachable h).gone n es hd with ⟨x, hx, rfl⟩ | hr
  · exact .inl ⟨x.2, hx, (inv_reachable h).unique _ _ _ hd ((inv_reachable h).open_ x hx)⟩
  · exact .inr hr

/-- C51, no deadlock: when the consumer is started and the callback returns, something can always go on as long as a `Dispatch` or an event is waiting. -/
theorem C51_progress {cap : Nat} {s : State E} (hs : s.started = true) (hw : s.calls ≠ [] ∨ s.buf ≠ []) (hb : s.busy = false) :
    ∃ s', Step cap s s' ∧ ((handled s'.log).length = (handled s.log).length + 1 ∨ s'.calls.length < s.calls.length ∨ (sent s'.log).length = (sent s.log).length + 1) := by
  cases hbuf : s.buf with
  | cons x rest => exact ⟨_, .take s x.1 x.2 rest hbuf hs hb, .inl (by simp [handled_handled])⟩
  | nil =>
    cases hc : s.calls with
    | nil => simp [hc, hbuf] at hw
    | cons x cs =>
      obtain ⟨n, es⟩ := x
      cases es with
      | nil => exact ⟨_, .ret s n (by rw [hc]; exact List.mem_cons_self), .inr (.inl (by simp [hc]))⟩
      | cons e es => exact ⟨_, .direct s n e es (by rw [hc]; exact List.mem_cons_self) hbuf hs hb, .inl (by simp [handled_other, handled_handled])⟩

/-- Without `Start` (or while the callback does not return) a full channel blocks every sender: nothing can be sent. -/
theorem C51_blocks {cap : Nat} {s s' : State E} (hfull : cap ≤ s.buf.length) (hns : s.started = false ∨ s.busy = true) (h : Step cap s s') : sent s'.log = sent s.log := by
  cases h with
  | send n e es hm hc => omega
  | direct n e es hm hb hs hi => rcases hns with h | h <;> simp_all
  | dispatch | ret | take | done => exact sent_other _ _ (by simp)
  | start => rfl

/-- A history with two overlapping `Dispatch` calls of two events each over a channel with room for one. -/
example : ∃ s : State Nat, Reachable 1 s ∧ sent s.log = [(0, 10), (1, 20), (0, 11)] ∧ handled s.log = [(0, 10), (1, 20)] ∧ .dispatched 0 [10, 11] ∈ s.log ∧ .dispatched 1 [20, 21] ∈ s.log ∧ .returned 0 ∈ s.log := by
  refine ⟨_, .step (.step (.step (.step (.step (.step (.step (.step (.step (.step .init (.dispatch _ [10, 11])) (.dispatch _ [20, 21])) (.start _)) (.send _ 0 10 [11] ?_ ?_)) (.take _ 0 10 [] ?_ ?_ ?_)) (.send _ 1 20 [21] ?_ ?_)) (.done _ ?_)) (.take _ 1 20 [] ?_ ?_ ?_)) (.send _ 0 11 [] ?_ ?_)) (.ret _ 0 ?_), ?_⟩
  all_goals decide

end Ddd.MemBus
