import Verif.Model.NewEvent
import Verif.Proofs.Bus
/-! C101: what NewDomainEvent makes of an event and its options. -/
set_option linter.unusedSimpArgs false
namespace Ddd.NewEvent
open Bus

variable {E : Type} (k : Class E)

/-- C101: NewDomainEvent panics iff the event can not be encoded; otherwise the result carries the type, the sender and the encoding of the event, the given identifier and time. -/
theorem C101_fields_partial (id now : Nat) (e : E) (opts : List (EventOption → EventOption)) :
    (newDomainEvent k id now e opts = none ↔ k.json e = none) ∧
    ∀ d, newDomainEvent k id now e opts = some d → d.id = id ∧ d.created = now ∧ d.type = k.type e ∧ d.sender = k.sender e ∧ k.json e = some d.payload := by
  unfold newDomainEvent
  cases h : k.json e with
  | none => simp
  | some p => simp

/-- C101: without options the event is sent normally; the last WithSendType among the options decides, whatever other options do to the time. -/
theorem C101_send_type (id now : Nat) (e : E) (d : DomainEvent) :
    (newDomainEvent k id now e [] = some d → d.sendType = .normal) ∧
    ∀ (l1 : List (EventOption → EventOption)) (t : SendType) (l2 : List Nat), newDomainEvent k id now e (l1 ++ withSendType t :: l2.map withSendTime) = some d → d.sendType = t := by
  unfold newDomainEvent
  cases h : k.json e with
  | none => simp
  | some p =>
    refine ⟨by simp; rintro rfl; rfl, ?_⟩
    intro l1 t l2 h
    simp only [Option.some.injEq, List.foldl_append, List.foldl_cons] at h
    have key : ∀ (l2 : List Nat) (o : EventOption), ((l2.map withSendTime).foldl (fun o f => f o) o).sendType = o.sendType := by
      intro l2
      induction l2 with
      | nil => intro o; rfl
      | cons a l2 ih => intro o; simp only [List.map_cons, List.foldl_cons]; rw [ih]; rfl
    subst h
    simp only [key]
    rfl

/-- C101, counterexample: the send time of the options is lost: options that differ in it only give the same event. -/
theorem C101_send_time_lost (id now : Nat) (e : E) (l : List (EventOption → EventOption)) (t t' : Nat) :
    newDomainEvent k id now e (l ++ [withSendTime t]) = newDomainEvent k id now e (l ++ [withSendTime t']) := by
  unfold newDomainEvent
  simp only [List.foldl_append, List.foldl_cons, List.foldl_nil]
  rfl

/-- C101, counterexample: an event to be delayed until `t` (however late) that is dispatched is handed to the handler by the very next pass of the bus, at the time of its creation. -/
theorem C101_delay_at_once (c : Cfg) (hl : 0 < c.limit) (svc id now t : Nat) (ans : Nat → DEv → Ret) (body : Nat → Nat → Nat) (e : E) (d : DomainEvent)
    (h : newDomainEvent k id now e [withSendType .delay, withSendTime t] = some d) :
    d.sendType = .delay ∧ (dispatch (emptyDB [svc]) 0 [d.stored body] 3).2 = true ∧
    (handleEvents c svc now ans (dispatch (emptyDB [svc]) 0 [d.stored body] 3).1).2 = [d.stored body] := by
  have hd : d.sendType = .delay := by
    have := (C101_send_type k id now e d).2 [] .delay [t]
    exact this h
  have hc := ((C101_fields_partial k id now e _).2 d h).2.1
  have hs : (d.stored body).sendType = .delay := hd
  have ht : (d.stored body).created = now := hc
  generalize d.stored body = x at *
  refine ⟨hd, by simp [dispatch, emptyDB], ?_⟩
  obtain ⟨n, hn⟩ := Nat.exists_eq_succ_of_ne_zero (Nat.pos_iff_ne_zero.1 hl)
  simp [dispatch, emptyDB, insertAllRecs, insertRecs, insertEvents, newEvents, newRecs, handleEvents, scanStart, ht, scan, scanRecs, pendingFrom, pairUp, scanOffset, handleAll, handle, mayCall, hs, hn, List.insertionSort]

/-- such an event exists -/
theorem delay_demo : newDomainEvent (E := Nat) ⟨fun _ => 1, fun e => e, fun e => some e⟩ 9 5 7 [withSendType .delay, withSendTime 100] = some ⟨9, 1, .delay, 7, 7, 5⟩ := rfl

end Ddd.NewEvent
