import Verif.Spec.DBLock
/-! # Invariant of the database lock -/
set_option linter.unusedVariables false
set_option linter.unusedSimpArgs false
namespace Ddd.Lock

/-- an attempt in this state may own the row of `k` with time stamp `w`. -/
def Pc.owns (k w : Nat) : Pc → Prop
  | .held k' u => k' = k ∧ u ≤ w
  | .failed _ => True
  | .stuck _ => True
  | _ => False

/-- an attempt in this state will not write a row of its own any more, except by renewing. -/
def Pc.past : Pc → Prop
  | .start _ => False
  | .sawNone _ => False
  | .saw .. => False
  | .creating .. => False
  | .stealing .. => False
  | _ => True

/-- time stamps in the state of an attempt are not in the future. -/
def Pc.times (now : Nat) : Pc → Prop
  | .creating _ u => u ≤ now
  | .stealing _ _ u => u ≤ now
  | .held _ u => u ≤ now
  | .saw _ _ tr => tr ≤ now
  | _ => True

/-- a renewal under way has a time stamp between that of the lock and now. -/
def Pc.renOK (now : Nat) (o : Option Nat) : Pc → Prop
  | .held _ u => ∀ u', o = some u' → u ≤ u' ∧ u' ≤ now
  | _ => ∀ u', o = some u' → u' ≤ now

theorem Pc.renOK_none (now : Nat) (p : Pc) : p.renOK now none := by cases p <;> simp [Pc.renOK]

theorem Pc.past_of_had {k : Nat} {p : Pc} (h : p.had = some k) : p.past := by cases p <;> simp_all [Pc.had, Pc.past]

theorem Pc.past_of_owns {k w : Nat} {p : Pc} (h : p.owns k w) : p.past := by cases p <;> simp_all [Pc.owns, Pc.past]

/-- invariant -/
structure Inv (ttl : Nat) (pol : Policy) (s : State) : Prop where
  owner : ∀ k r, s.tab k = some r → r.updated ≤ s.now ∧ (s.pc r.locker).owns k r.updated
  times : ∀ l, (s.pc l).times s.now
  sawPast : ∀ l k r tr, s.pc l = .saw k r tr → (s.pc r.locker).past
  saw : ∀ l k r tr, s.pc l = .saw k r tr → ∀ x, s.tab k = some x → x.locker = r.locker → x.updated = r.updated ∨ ∀ te, pol.evalOK tr te → te < r.updated + ttl
  stealPast : ∀ l k v u, s.pc l = .stealing k v u → (s.pc v).past
  steal : ∀ l k v u, s.pc l = .stealing k v u → ∀ x, s.tab k = some x → x.locker = v → x.updated + ttl ≤ s.now
  held : ∀ l k u, s.pc l = .held k u → s.now < u + ttl → (s.tab k).map Row.locker = some l
  ren : ∀ l, (s.pc l).renOK s.now (s.ren l)
  renPast : ∀ l u, s.ren l = some u → (s.pc l).past

set_option maxHeartbeats 2000000 in
theorem inv_step {ttl pol} (ht : Timely ttl pol) {s s' : State} {e : Ev} (h : Inv ttl pol s) (st : Step ttl pol s e s') : Inv ttl pol s' := by
  obtain ⟨h1, h2, h3, h4, h5, h6, h7, h8, h9⟩ := h
  cases st with
  | tick d =>
    refine ⟨?_, ?_, ?_, ?_, ?_, ?_, ?_, ?_, ?_⟩
    · grind
    · intro l; have := h2 l; revert this; cases hp : s.pc l <;> simp [Pc.times, hp] <;> omega
    · grind
    · grind
    · grind
    · grind
    · grind
    · intro l; have := h8 l; revert this; cases hp : s.pc l <;> simp [Pc.renOK, hp] <;> grind
    · grind
  | read hp =>
    refine ⟨?_, ?_, ?_, ?_, ?_, ?_, ?_, ?_, ?_⟩ <;> simp only [State.at, State.renAt, setTab] <;> grind [Pc.owns, Pc.past, Pc.times, insertRow, casRow, delRow, setTab, Timely, Pc.past_of_owns, Pc.had, Pc.restamp, Pc.renOK]
  | readErr hp =>
    refine ⟨?_, ?_, ?_, ?_, ?_, ?_, ?_, ?_, ?_⟩ <;> simp only [State.at, State.renAt, setTab] <;> grind [Pc.owns, Pc.past, Pc.times, insertRow, casRow, delRow, setTab, Timely, Pc.past_of_owns, Pc.had, Pc.restamp, Pc.renOK]
  | prepare hp =>
    refine ⟨?_, ?_, ?_, ?_, ?_, ?_, ?_, ?_, ?_⟩ <;> simp only [State.at, State.renAt, setTab] <;> grind [Pc.owns, Pc.past, Pc.times, insertRow, casRow, delRow, setTab, Timely, Pc.past_of_owns, Pc.had, Pc.restamp, Pc.renOK]
  | create hp =>
    rename_i l k u
    cases hk : s.tab k with
    | none => simp only [insertRow, hk, if_true]; (refine ⟨?_, ?_, ?_, ?_, ?_, ?_, ?_, ?_, ?_⟩ <;> simp only [State.at, State.renAt, setTab] <;> grind [Pc.owns, Pc.past, Pc.times, setTab, Timely, Pc.past_of_owns, Pc.had, Pc.restamp, Pc.renOK])
    | some x => simp only [insertRow, hk, Bool.false_eq_true, if_false]; (refine ⟨?_, ?_, ?_, ?_, ?_, ?_, ?_, ?_, ?_⟩ <;> simp only [State.at, State.renAt, setTab] <;> grind [Pc.owns, Pc.past, Pc.times, setTab, Timely, Pc.past_of_owns, Pc.had, Pc.restamp, Pc.renOK])
  | createErr t hp ht' =>
    rename_i l k u
    rcases ht' with rfl | rfl
    · (refine ⟨?_, ?_, ?_, ?_, ?_, ?_, ?_, ?_, ?_⟩ <;> simp only [State.at, State.renAt, setTab] <;> grind [Pc.owns, Pc.past, Pc.times, setTab, Timely, Pc.past_of_owns, Pc.had, Pc.restamp, Pc.renOK])
    · cases hk : s.tab k with
      | none => simp only [insertRow, hk, if_true]; (refine ⟨?_, ?_, ?_, ?_, ?_, ?_, ?_, ?_, ?_⟩ <;> simp only [State.at, State.renAt, setTab] <;> grind [Pc.owns, Pc.past, Pc.times, setTab, Timely, Pc.past_of_owns, Pc.had, Pc.restamp, Pc.renOK])
      | some x => simp only [insertRow, hk, Bool.false_eq_true, if_false]; (refine ⟨?_, ?_, ?_, ?_, ?_, ?_, ?_, ?_, ?_⟩ <;> simp only [State.at, State.renAt, setTab] <;> grind [Pc.owns, Pc.past, Pc.times, setTab, Timely, Pc.past_of_owns, Pc.had, Pc.restamp, Pc.renOK])
  | check hp he => (refine ⟨?_, ?_, ?_, ?_, ?_, ?_, ?_, ?_, ?_⟩ <;> simp only [State.at, State.renAt, setTab] <;> grind [Pc.owns, Pc.past, Pc.times, setTab, Timely, Pc.past_of_owns, Pc.had, Pc.restamp, Pc.renOK])
  | steal hp =>
    rename_i l k v u
    cases hk : s.tab k with
    | none => simp only [casRow, hk, if_true]; (refine ⟨?_, ?_, ?_, ?_, ?_, ?_, ?_, ?_, ?_⟩ <;> simp only [State.at, State.renAt, setTab] <;> grind [Pc.owns, Pc.past, Pc.times, setTab, Timely, Pc.past_of_owns, Pc.had, Pc.restamp, Pc.renOK])
    | some x =>
      by_cases hx : x.locker = v
      · simp only [casRow, hk, hx, if_true, Nat.one_ne_zero, if_false]; (refine ⟨?_, ?_, ?_, ?_, ?_, ?_, ?_, ?_, ?_⟩ <;> simp only [State.at, State.renAt, setTab] <;> grind [Pc.owns, Pc.past, Pc.times, setTab, Timely, Pc.past_of_owns, Pc.had, Pc.restamp, Pc.renOK])
      · simp only [casRow, hk, hx, if_true, if_false]; (refine ⟨?_, ?_, ?_, ?_, ?_, ?_, ?_, ?_, ?_⟩ <;> simp only [State.at, State.renAt, setTab] <;> grind [Pc.owns, Pc.past, Pc.times, setTab, Timely, Pc.past_of_owns, Pc.had, Pc.restamp, Pc.renOK])
  | stealErr t hp ht' =>
    rename_i l k v u
    rcases ht' with rfl | rfl
    · (refine ⟨?_, ?_, ?_, ?_, ?_, ?_, ?_, ?_, ?_⟩ <;> simp only [State.at, State.renAt, setTab] <;> grind [Pc.owns, Pc.past, Pc.times, setTab, Timely, Pc.past_of_owns, Pc.had, Pc.restamp, Pc.renOK])
    · cases hk : s.tab k with
      | none => simp only [casRow, hk, if_true]; (refine ⟨?_, ?_, ?_, ?_, ?_, ?_, ?_, ?_, ?_⟩ <;> simp only [State.at, State.renAt, setTab] <;> grind [Pc.owns, Pc.past, Pc.times, setTab, Timely, Pc.past_of_owns, Pc.had, Pc.restamp, Pc.renOK])
      | some x =>
        by_cases hx : x.locker = v
        · simp only [casRow, hk, hx, if_true, Nat.one_ne_zero, if_false]; (refine ⟨?_, ?_, ?_, ?_, ?_, ?_, ?_, ?_, ?_⟩ <;> simp only [State.at, State.renAt, setTab] <;> grind [Pc.owns, Pc.past, Pc.times, setTab, Timely, Pc.past_of_owns, Pc.had, Pc.restamp, Pc.renOK])
        · simp only [casRow, hk, hx, if_true, if_false]; (refine ⟨?_, ?_, ?_, ?_, ?_, ?_, ?_, ?_, ?_⟩ <;> simp only [State.at, State.renAt, setTab] <;> grind [Pc.owns, Pc.past, Pc.times, setTab, Timely, Pc.past_of_owns, Pc.had, Pc.restamp, Pc.renOK])
  | renewStart hp hn =>
    rename_i l k
    have hl := h2 l
    cases hq : s.pc l <;> rw [hq] at hp hl <;> simp only [Pc.had, Option.some.injEq, reduceCtorEq] at hp <;> subst hp <;> simp only [Pc.times] at hl <;>
      (refine ⟨?_, ?_, ?_, ?_, ?_, ?_, ?_, ?_, ?_⟩ <;> simp only [State.at, State.renAt, setTab] <;> grind [Pc.owns, Pc.past, Pc.times, setTab, Timely, Pc.past_of_owns, Pc.renOK_none, Pc.had, Pc.restamp, Pc.renOK])
  | renew hp ho hr =>
    rename_i l k u'
    have hl := h2 l
    have h8l := h8 l
    cases hk : s.tab k with
    | none =>
      simp only [casRow, hk, if_true]
      (refine ⟨?_, ?_, ?_, ?_, ?_, ?_, ?_, ?_, ?_⟩ <;> simp only [State.at, State.renAt, setTab] <;> grind [Pc.owns, Pc.past, Pc.times, setTab, Timely, Pc.past_of_owns, Pc.renOK_none, Pc.had, Pc.restamp, Pc.renOK])
    | some x =>
      by_cases hx : x.locker = l
      · have hn : s.now < x.updated + ttl := ht _ _ _ _ (hr x hk hx) (Nat.le_refl _) (.inr rfl)
        have how := h1 k x hk
        rw [hx] at how
        simp only [casRow, hk, hx, if_true, Nat.one_ne_zero, if_false]
        cases hq : s.pc l <;> rw [hq] at hp hl how h8l <;> simp only [Pc.had, Option.some.injEq, reduceCtorEq] at hp <;> subst hp <;>
          simp only [Pc.times, Pc.owns, Pc.restamp, Pc.renOK, and_false] at hl how h8l ⊢ <;>
          (refine ⟨?_, ?_, ?_, ?_, ?_, ?_, ?_, ?_, ?_⟩ <;> simp only [State.at, State.renAt, setTab] <;> grind [Pc.owns, Pc.past, Pc.times, setTab, Timely, Pc.past_of_owns, Pc.renOK_none, Pc.had, Pc.restamp, Pc.renOK])
      · simp only [casRow, hk, hx, if_true, if_false]
        (refine ⟨?_, ?_, ?_, ?_, ?_, ?_, ?_, ?_, ?_⟩ <;> simp only [State.at, State.renAt, setTab] <;> grind [Pc.owns, Pc.past, Pc.times, setTab, Timely, Pc.past_of_owns, Pc.renOK_none, Pc.had, Pc.restamp, Pc.renOK])
  | renewErr t hp ho hr ht' =>
    rename_i l k u'
    have hl := h2 l
    have h8l := h8 l
    rcases ht' with rfl | rfl
    · (refine ⟨?_, ?_, ?_, ?_, ?_, ?_, ?_, ?_, ?_⟩ <;> simp only [State.at, State.renAt, setTab] <;> grind [Pc.owns, Pc.past, Pc.times, setTab, Timely, Pc.past_of_owns, Pc.renOK_none, Pc.had, Pc.restamp, Pc.renOK])
    · cases hk : s.tab k with
      | none =>
        simp only [casRow, hk, if_true]
        (refine ⟨?_, ?_, ?_, ?_, ?_, ?_, ?_, ?_, ?_⟩ <;> simp only [State.at, State.renAt, setTab] <;> grind [Pc.owns, Pc.past, Pc.times, setTab, Timely, Pc.past_of_owns, Pc.renOK_none, Pc.had, Pc.restamp, Pc.renOK])
      | some x =>
        by_cases hx : x.locker = l
        · have hn : s.now < x.updated + ttl := ht _ _ _ _ (hr x hk hx) (Nat.le_refl _) (.inr rfl)
          have how := h1 k x hk
          rw [hx] at how
          simp only [casRow, hk, hx, if_true, Nat.one_ne_zero, if_false]
          cases hq : s.pc l <;> rw [hq] at hp hl how h8l <;> simp only [Pc.had, Option.some.injEq, reduceCtorEq] at hp <;> subst hp <;>
            simp only [Pc.times, Pc.owns, Pc.restamp, Pc.renOK, and_false] at hl how h8l ⊢ <;>
            (refine ⟨?_, ?_, ?_, ?_, ?_, ?_, ?_, ?_, ?_⟩ <;> simp only [State.at, State.renAt, setTab] <;> grind [Pc.owns, Pc.past, Pc.times, setTab, Timely, Pc.past_of_owns, Pc.renOK_none, Pc.had, Pc.restamp, Pc.renOK])
        · simp only [casRow, hk, hx, if_true, if_false]
          (refine ⟨?_, ?_, ?_, ?_, ?_, ?_, ?_, ?_, ?_⟩ <;> simp only [State.at, State.renAt, setTab] <;> grind [Pc.owns, Pc.past, Pc.times, setTab, Timely, Pc.past_of_owns, Pc.renOK_none, Pc.had, Pc.restamp, Pc.renOK])
  | unlock hp =>
    rename_i l k u
    cases hk : s.tab k with
    | none => simp only [delRow, hk, if_true]; (refine ⟨?_, ?_, ?_, ?_, ?_, ?_, ?_, ?_, ?_⟩ <;> simp only [State.at, State.renAt, setTab] <;> grind [Pc.owns, Pc.past, Pc.times, setTab, Timely, Pc.past_of_owns, Pc.had, Pc.restamp, Pc.renOK])
    | some x =>
      by_cases hx : x.locker = l
      · simp only [delRow, hk, hx, if_true, Nat.one_ne_zero, if_false]; (refine ⟨?_, ?_, ?_, ?_, ?_, ?_, ?_, ?_, ?_⟩ <;> simp only [State.at, State.renAt, setTab] <;> grind [Pc.owns, Pc.past, Pc.times, setTab, Timely, Pc.past_of_owns, Pc.had, Pc.restamp, Pc.renOK])
      · simp only [delRow, hk, hx, if_true, if_false]; (refine ⟨?_, ?_, ?_, ?_, ?_, ?_, ?_, ?_, ?_⟩ <;> simp only [State.at, State.renAt, setTab] <;> grind [Pc.owns, Pc.past, Pc.times, setTab, Timely, Pc.past_of_owns, Pc.had, Pc.restamp, Pc.renOK])
  | unlockErr t hp ht' =>
    rename_i l k u
    rcases ht' with rfl | rfl
    · (refine ⟨?_, ?_, ?_, ?_, ?_, ?_, ?_, ?_, ?_⟩ <;> simp only [State.at, State.renAt, setTab] <;> grind [Pc.owns, Pc.past, Pc.times, setTab, Timely, Pc.past_of_owns, Pc.had, Pc.restamp, Pc.renOK])
    · cases hk : s.tab k with
      | none => simp only [delRow, hk, if_true]; (refine ⟨?_, ?_, ?_, ?_, ?_, ?_, ?_, ?_, ?_⟩ <;> simp only [State.at, State.renAt, setTab] <;> grind [Pc.owns, Pc.past, Pc.times, setTab, Timely, Pc.past_of_owns, Pc.had, Pc.restamp, Pc.renOK])
      | some x =>
        by_cases hx : x.locker = l
        · simp only [delRow, hk, hx, if_true, Nat.one_ne_zero, if_false]; (refine ⟨?_, ?_, ?_, ?_, ?_, ?_, ?_, ?_, ?_⟩ <;> simp only [State.at, State.renAt, setTab] <;> grind [Pc.owns, Pc.past, Pc.times, setTab, Timely, Pc.past_of_owns, Pc.had, Pc.restamp, Pc.renOK])
        · simp only [delRow, hk, hx, if_true, if_false]; (refine ⟨?_, ?_, ?_, ?_, ?_, ?_, ?_, ?_, ?_⟩ <;> simp only [State.at, State.renAt, setTab] <;> grind [Pc.owns, Pc.past, Pc.times, setTab, Timely, Pc.past_of_owns, Pc.had, Pc.restamp, Pc.renOK])

theorem inv_initial {ttl pol} {s : State} (h : Initial s) : Inv ttl pol s := by
  obtain ⟨h1, h2⟩ := h
  refine ⟨?_, ?_, ?_, ?_, ?_, ?_, ?_, ?_, ?_⟩
  · intro k r hr; exact ⟨(h2 k r hr).2, by rw [(h2 k r hr).1]; trivial⟩
  · intro l; obtain ⟨_, k, h | h⟩ := h1 l <;> rw [h] <;> trivial
  case refine_8 => intro l; obtain ⟨h0, _⟩ := h1 l; rw [h0]; exact Pc.renOK_none _ _
  all_goals (intro l k; intros; obtain ⟨_, k', h | h⟩ := h1 l <;> simp_all)

theorem inv_reachable {ttl pol} (ht : Timely ttl pol) {s : State} (h : Reachable ttl pol s) : Inv ttl pol s := by
  obtain ⟨s0, es, h0, hx⟩ := h
  have hi := inv_initial (ttl := ttl) (pol := pol) h0
  clear h0
  induction hx with
  | nil => exact hi
  | snoc _ st ih => exact inv_step ht ih st

end Ddd.Lock
