import Verif.Props.MemBus
import Verif.Spec.MemNested
/-!
# C107: memory bus, handlers that dispatch on the bus that called them
-/
set_option linter.unusedVariables false
set_option linter.unusedSimpArgs false
set_option linter.unusedSectionVars false
namespace Ddd.MemBus

variable {E : Type} [DecidableEq E]

theorem nstep_step {cap : Nat} {s t : NState E} (h : NStep cap s t) : Step cap s.bus t.bus := by
  cases h with
  | dispatch es => exact .dispatch _ es
  | nested es hb hi => exact .dispatch _ es
  | send n e es hm hc => exact .send _ n e es hm hc
  | direct n e es hm hb hs hi => exact .direct _ n e es hm hb hs hi
  | ret n hm => exact .ret _ n hm
  | start => exact .start _
  | take n e rest hb hs hi => exact .take _ n e rest hb hs hi
  | done hb hi => exact .done _ hb

/-- **C107** Everything C51 says of the bus holds also with handlers that dispatch. -/
theorem C107_bus {cap : Nat} {s : NState E} (h : NReachable cap s) : Reachable cap s.bus := by
  induction h with
  | init => exact .init
  | step _ hst ih => exact .step ih (nstep_step hst)

/-- what is still to be sent -/
def toSend : List (Nat × List E) → Nat
  | [] => 0
  | c :: cs => c.2.length + toSend cs

theorem toSend_erase {c : Nat × List E} : ∀ {cs : List (Nat × List E)}, c ∈ cs → toSend cs = c.2.length + toSend (cs.erase c)
  | x :: cs, h => by
    by_cases hx : x = c
    · subst hx; simp [toSend]
    · have hm : c ∈ cs := by simpa [Ne.symm hx] using h
      rw [List.erase_cons_tail (by simpa using hx)]
      simp only [toSend, toSend_erase hm]; omega

theorem offered_eq {cap : Nat} {s : State E} (h : Reachable cap s) : offered s.log = (sent s.log).length + toSend s.calls := by
  induction h with
  | init => rfl
  | @step a b hr hst ih =>
    cases hst with
    | dispatch es => simp [offered, sent_other, toSend, ih]; omega
    | send n e es hm hc =>
      have := toSend_erase hm
      simp [offered, sent_sent, toSend] at this ⊢; omega
    | direct n e es hm hb hs hi =>
      have := toSend_erase hm
      simp [offered, sent_sent, sent_other, toSend] at this ⊢; omega
    | ret n hm =>
      have := toSend_erase hm
      simp [offered, sent_other, toSend] at this ⊢; omega
    | start => exact ih
    | take n e rest hb hs hi => simpa [offered, sent_other] using ih
    | done hb => simpa [offered, sent_other] using ih

/-- the callback waits in its own `Dispatch` for room in a full channel -/
structure Waits (cap : Nat) (s : NState E) : Prop where
  full : cap ≤ s.bus.buf.length
  busy : s.bus.busy = true
  inner : ∃ n e es, s.inner = some n ∧ (n, e :: es) ∈ s.bus.calls

/-- the call of the callback is under way, and only then does the callback wait -/
theorem inner_inv {cap : Nat} {s : NState E} (h : NReachable cap s) : (∀ n, s.inner = some n → s.bus.busy = true ∧ ∃ es, (n, es) ∈ s.bus.calls) := by
  induction h with
  | init => simp
  | @step a b hr hst ih =>
    have hI := inv_reachable (C107_bus hr)
    cases hst with
    | dispatch es => intro n hn; obtain ⟨h1, x, h2⟩ := ih n hn; exact ⟨h1, x, by simp [h2]⟩
    | nested es hb hi => intro n hn; simp at hn; subst hn; exact ⟨hb, es, by simp⟩
    | send n e es hm hc =>
      intro m hn; obtain ⟨h1, x, h2⟩ := ih m hn
      refine ⟨h1, ?_⟩
      by_cases hx : (m, x) = (n, e :: es)
      · cases hx; exact ⟨es, by simp⟩
      · exact ⟨x, by simp [List.mem_erase_of_ne hx, h2]⟩
    | direct n e es hm hb hs hi =>
      intro m hn; obtain ⟨h1, _⟩ := ih m hn; simp [hi] at h1
    | ret n hm =>
      intro m hn
      simp only at hn
      split at hn
      · cases hn
      · rename_i hne
        obtain ⟨h1, x, h2⟩ := ih m hn
        have hx : (m, x) ≠ (n, []) := by rintro ⟨⟩; exact hne hn
        exact ⟨h1, x, by simp [List.mem_erase_of_ne hx, h2]⟩
    | start => exact ih
    | take n e rest hb hs hi => intro m hn; obtain ⟨h1, _⟩ := ih m hn; simp [hi] at h1
    | done hb hi => intro m hn; simp [hi] at hn

theorem waits_step {cap : Nat} {s t : NState E} (hr : NReachable cap s) (hw : Waits cap s) (h : NStep cap s t) : Waits cap t ∧ handled t.bus.log = handled s.bus.log := by
  obtain ⟨hf, hb, n, e, es, hn, hm⟩ := hw
  cases h with
  | dispatch es' => exact ⟨⟨hf, hb, n, e, es, hn, by simp [hm]⟩, handled_other _ _ (by simp)⟩
  | nested es' hb hi => simp [hi] at hn
  | send m e' es' hm' hc => omega
  | direct m e' es' hm' hb' hs hi => simp [hb] at hi
  | ret m hm' =>
    have hx : (n, e :: es) ≠ (m, []) := by simp
    have hne : s.inner ≠ some m := by
      intro h
      rw [hn] at h; cases h
      have hI := inv_reachable (C107_bus hr)
      have h1 := hI.open_ _ hm
      have h2 := hI.open_ _ hm'
      have := hI.unique _ _ _ h1 h2
      simp at this
    exact ⟨⟨hf, hb, n, e, es, by simp only [hne, if_false]; exact hn, by simp [List.mem_erase_of_ne hx, hm]⟩, handled_other _ _ (by simp)⟩
  | start => exact ⟨⟨hf, hb, n, e, es, hn, hm⟩, rfl⟩
  | take m e' rest hb' hs hi => simp [hb] at hi
  | done hb' hi => simp [hi] at hn

theorem NSteps.reachable {cap : Nat} {s t : NState E} (hr : NReachable cap s) (h : NSteps cap s t) : NReachable cap t := by
  induction h with
  | refl => exact hr
  | step _ hst ih => exact .step ih hst

/-- **C107** Once a handler waits in its own `Dispatch` for room in a full channel, the bus stands still for ever: whatever anybody does, nothing is handled any more, and the handler never returns. -/
theorem C107_forever {cap : Nat} {s : NState E} (hr : NReachable cap s) {n : Nat} {e : E} {es : List E} (hi : s.inner = some n) (hm : (n, e :: es) ∈ s.bus.calls) (hf : cap ≤ s.bus.buf.length) :
    Standstill cap s ∧ ∀ t, NSteps cap s t → t.bus.busy = true ∧ t.inner = some n := by
  have hw : Waits cap s := ⟨hf, (inner_inv hr n hi).1, n, e, es, hi, hm⟩
  have key : ∀ t, NSteps cap s t → Waits cap t ∧ handled t.bus.log = handled s.bus.log ∧ t.inner = some n := by
    intro t ht
    induction ht with
    | refl => exact ⟨hw, rfl, hi⟩
    | @step t u hst h ih =>
      obtain ⟨h1, h2, h3⟩ := ih
      obtain ⟨h4, h5⟩ := waits_step (hst.reachable hr) h1 h
      refine ⟨h4, h5.trans h2, ?_⟩
      obtain ⟨m, _, _, hm1, hm2⟩ := h1.inner
      obtain ⟨k, _, _, hk1, hk2⟩ := h4.inner
      cases h with
      | nested es' hb hi => simp [hi] at h3
      | ret k' hk' =>
        simp only at hk1 ⊢
        split at hk1
        · cases hk1
        · rename_i hne; simp only [hne, if_false]; exact h3
      | _ => exact h3
  exact ⟨fun t ht => (key t ht).2.1, fun t ht => ⟨(key t ht).1.busy, (key t ht).2.2⟩⟩

/-- **C107** "A bus that is started keeps handling events" is therefore false for every capacity: one handler that dispatches a single event is enough, when other senders filled the channel meanwhile. -/
theorem C107_standstill (cap : Nat) (e : E) : ∃ s : NState E, NReachable cap s ∧ s.bus.started = true ∧ Standstill cap s ∧ s.bus.calls ≠ [] ∧ s.inner ≠ none := by
  -- one event goes to the callback, `cap` more into the channel
  have fill : ∀ k, k ≤ cap → ∃ s : NState E, NReachable cap s ∧ s.bus.started = true ∧ s.bus.busy = true ∧ s.inner = none ∧ s.bus.buf.length = k := by
    intro k
    induction k with
    | zero =>
      intro _
      exact ⟨_, .step (.step (.step .init (.dispatch _ [e])) (.start _)) (.direct _ 0 e [] (by simp [State.init]) rfl rfl rfl), rfl, rfl, rfl, rfl⟩
    | succ k ih =>
      intro hk
      obtain ⟨s, hr, h1, h2, h3, h4⟩ := ih (by omega)
      refine ⟨_, .step (.step hr (.dispatch s [e])) (.send _ s.bus.nextCall e [] (by simp) (by simp; omega)), h1, h2, h3, by simp [h4]⟩
  obtain ⟨s, hr, h1, h2, h3, h4⟩ := fill cap (Nat.le_refl _)
  have hr' := NReachable.step hr (.nested s [e] h2 h3)
  exact ⟨_, hr', h1, (C107_forever hr' (n := s.bus.nextCall) (e := e) (es := []) rfl (by simp) (by simp [h4])).1, by simp, by simp⟩

/-- **C107** On an unbuffered bus every handler that dispatches an event stands still at once. -/
theorem C107_unbuffered {s : NState E} (hr : NReachable 0 s) {n : Nat} {e : E} {es : List E} (hi : s.inner = some n) (hm : (n, e :: es) ∈ s.bus.calls) : Standstill 0 s :=
  (C107_forever hr hi hm (Nat.zero_le _)).1

/-- **C107** It can not happen while the events offered and not yet handled fit into the channel: a bus with room for everything that is under way keeps going. -/
theorem C107_room_partial {cap : Nat} {s : NState E} (hr : NReachable cap s) (hs : s.bus.started = true) (hfit : offered s.bus.log ≤ (handled s.bus.log).length + cap) (hw : s.bus.calls ≠ [] ∨ s.bus.buf ≠ []) :
    ∃ t, NStep cap s t ∧ offered t.bus.log = offered s.bus.log ∧
      (handled t.bus.log = handled s.bus.log ∧ t.bus.busy = false ∧ s.bus.busy = true ∨ (handled t.bus.log).length = (handled s.bus.log).length + 1 ∨
        t.bus.calls.length < s.bus.calls.length ∨ (sent t.bus.log).length = (sent s.bus.log).length + 1) := by
  have hb := C107_bus hr
  have h1 := offered_eq hb
  have h2 : (sent s.bus.log).length = (handled s.bus.log).length + s.bus.buf.length := by rw [C51_flow hb]; simp
  cases hbusy : s.bus.busy with
  | true =>
    cases hin : s.inner with
    | none => exact ⟨_, .done s hbusy hin, by simp [offered], .inl ⟨by simp [handled_other], rfl, rfl⟩⟩
    | some n =>
      obtain ⟨_, es, hm⟩ := inner_inv hr n hin
      cases es with
      | nil =>
        refine ⟨_, .ret s n hm, by simp [offered], .inr (.inr (.inl ?_))⟩
        have := List.length_erase_of_mem hm
        have := List.length_pos_of_mem hm
        simp only; omega
      | cons e es =>
        have := toSend_erase hm
        simp only [List.length_cons] at this
        exact ⟨_, .send s n e es hm (by omega), by simp [offered], .inr (.inr (.inr (by simp [sent_sent])))⟩
  | false =>
    cases hbuf : s.bus.buf with
    | cons x rest => exact ⟨_, .take s x.1 x.2 rest hbuf hs hbusy, by simp [offered], .inr (.inl (by simp [handled_handled]))⟩
    | nil =>
      cases hc : s.bus.calls with
      | nil => simp [hc, hbuf] at hw
      | cons x cs =>
        obtain ⟨n, es⟩ := x
        have hm : (n, es) ∈ s.bus.calls := by rw [hc]; exact List.mem_cons_self
        cases es with
        | nil => exact ⟨_, .ret s n hm, by simp [offered], .inr (.inr (.inl (by simp [hc])))⟩
        | cons e es => exact ⟨_, .direct s n e es hm hbuf hs hbusy, by simp [offered], .inr (.inl (by simp [handled_other, handled_handled]))⟩

/-- **C107** And that is the only way: a started bus stands still while work is waiting only if a handler waits in its own `Dispatch` for room in the full channel. -/
theorem C107_only {cap : Nat} {s : NState E} (hr : NReachable cap s) (hs : s.bus.started = true) (hw : s.bus.calls ≠ [] ∨ s.bus.buf ≠ [])
    (hn : ¬ ∃ n e es, s.inner = some n ∧ (n, e :: es) ∈ s.bus.calls ∧ cap ≤ s.bus.buf.length) :
    ∃ t, NStep cap s t ∧
      (handled t.bus.log = handled s.bus.log ∧ t.bus.busy = false ∧ s.bus.busy = true ∨ (handled t.bus.log).length = (handled s.bus.log).length + 1 ∨
        t.bus.calls.length < s.bus.calls.length ∨ (sent t.bus.log).length = (sent s.bus.log).length + 1) := by
  cases hbusy : s.bus.busy with
  | true =>
    cases hin : s.inner with
    | none => exact ⟨_, .done s hbusy hin, .inl ⟨by simp [handled_other], rfl, rfl⟩⟩
    | some n =>
      obtain ⟨_, es, hm⟩ := inner_inv hr n hin
      cases es with
      | nil =>
        refine ⟨_, .ret s n hm, .inr (.inr (.inl ?_))⟩
        have := List.length_erase_of_mem hm
        have := List.length_pos_of_mem hm
        simp only; omega
      | cons e es =>
        have hc : s.bus.buf.length < cap := by
          rcases Nat.lt_or_ge s.bus.buf.length cap with h | h
          · exact h
          · exact absurd ⟨n, e, es, hin, hm, h⟩ hn
        exact ⟨_, .send s n e es hm hc, .inr (.inr (.inr (by simp [sent_sent])))⟩
  | false =>
    cases hbuf : s.bus.buf with
    | cons x rest => exact ⟨_, .take s x.1 x.2 rest hbuf hs hbusy, .inr (.inl (by simp [handled_handled]))⟩
    | nil =>
      cases hc : s.bus.calls with
      | nil => simp [hc, hbuf] at hw
      | cons x cs =>
        obtain ⟨n, es⟩ := x
        have hm : (n, es) ∈ s.bus.calls := by rw [hc]; exact List.mem_cons_self
        cases es with
        | nil => exact ⟨_, .ret s n hm, .inr (.inr (.inl (by simp [hc])))⟩
        | cons e es => exact ⟨_, .direct s n e es hm hbuf hs hbusy, .inr (.inl (by simp [handled_other, handled_handled]))⟩

/-- A history that meets the hypotheses of `C107_room_partial`: a handler dispatches 11 while it handles 10, with room; the event is handled after it. -/
example : ∃ s : NState Nat, NReachable 2 s ∧ s.inner = some 1 ∧ (1, [11]) ∈ s.bus.calls ∧ offered s.bus.log ≤ (handled s.bus.log).length + 2 := by
  refine ⟨_, .step (.step (.step (.step (.step .init (.dispatch _ [10])) (.start _)) (.send _ 0 10 [] ?_ ?_)) (.take _ 0 10 [] ?_ ?_ ?_)) (.nested _ [11] ?_ ?_), ?_⟩
  all_goals decide
example : ∃ s : NState Nat, NReachable 2 s ∧ handled s.bus.log = [(0, 10), (1, 11)] ∧ s.bus.busy = false ∧ s.inner = none := by
  refine ⟨_, .step (.step (.step (.step (.step (.step (.step (.step (.step (.step .init (.dispatch _ [10])) (.start _)) (.send _ 0 10 [] ?_ ?_)) (.take _ 0 10 [] ?_ ?_ ?_)) (.nested _ [11] ?_ ?_)) (.send _ 1 11 [] ?_ ?_)) (.ret _ 1 ?_)) (.done _ ?_ ?_)) (.take _ 1 11 [] ?_ ?_ ?_)) (.done _ ?_ ?_), ?_⟩
  all_goals decide

end Ddd.MemBus
