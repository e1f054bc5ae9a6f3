import Verif.Proofs.DBLock
/-!
# C25–C28: the database lock
-/
set_option linter.unusedVariables false
set_option linter.unusedSimpArgs false
namespace Ddd.Lock

/-! ## C25 -/

/-- **C25** At any time at most one client holding key `k` is within its lease, for any interleaving of the statements, clock readings, failures and time
steps of any number of clients, provided renewals are made in time. -/
theorem C25_exclusive_partial {ttl pol} (ht : Timely ttl pol) {s : State} (h : Reachable ttl pol s) {k l1 l2 : Nat}
    (h1 : Within ttl s l1 k) (h2 : Within ttl s l2 k) : l1 = l2 := by
  have hi := inv_reachable ht h
  have key : ∀ l, Within ttl s l k → (s.tab k).map Row.locker = some l := by
    rintro l ⟨u, hu, hn⟩
    exact hi.held l k u hu hn
  have := (key l1 h1).symm.trans (key l2 h2)
  simpa using this

/-- **C25** Without renewals exclusion holds unconditionally. -/
theorem C25_exclusive_without_renewal {ttl : Nat} {s : State} (h : Reachable ttl noRenewal s) {k l1 l2 : Nat}
    (h1 : Within ttl s l1 k) (h2 : Within ttl s l2 k) : l1 = l2 :=
  C25_exclusive_partial (pol := noRenewal) (fun _ _ _ _ h => h.elim) h h1 h2

/-- **C25** With renewals exclusion holds if they keep that margin. -/
theorem C25_exclusive_with_margin {ttl d : Nat} {s : State} (h : Reachable ttl (withMargin ttl d) s) {k l1 l2 : Nat}
    (h1 : Within ttl s l1 k) (h2 : Within ttl s l2 k) : l1 = l2 := by
  refine C25_exclusive_partial (pol := withMargin ttl d) ?_ h h1 h2
  intro u tn tr te hr ht he
  simp only [withMargin] at hr he
  omega


namespace Demo
def s0 : State := { now := 0, tab := fun _ => none, pc := fun _ => .start 0 }
/-- client 1 obtained key 0 at time 0. -/
def s1 : State := { now := 0, tab := setTab (fun _ => none) 0 (some ⟨1, 0⟩), pc := fun x => if x = 1 then .held 0 0 else .start 0 }
end Demo

theorem exec_step {ttl pol} {s s1 s2 : State} {es : List Ev} {e : Ev} (h : Exec ttl pol s es s1) (st : Step ttl pol s1 e s2) :
    ∃ es', Exec ttl pol s es' s2 := ⟨_, .snoc h st⟩

/-- **C25** is false of the code if renewals are merely executed before the lease ran out: client 2 reads the row shortly before the end of the
lease, client 1 renews in time, client 2 checks the row it read after the end of the old lease and takes the lock over, because the
compare-and-swap compares only the locker ID (`sql.go:119-121`). Both are within their leases. -/
theorem C25_renewal_race : ∃ s, Reachable 10 (justInTime 10) s ∧ Within 10 s 1 0 ∧ Within 10 s 2 0 := by
  have h0 : Initial Demo.s0 := ⟨fun l => ⟨rfl, 0, .inl rfl⟩, fun k r h => by simp [Demo.s0] at h⟩
  have hr : ∀ {s e s'}, Reachable 10 (justInTime 10) s → Step 10 (justInTime 10) s e s' → Reachable 10 (justInTime 10) s' := by
    rintro s e s' ⟨s0, es, h1, h2⟩ h3; exact ⟨s0, _, h1, .snoc h2 h3⟩
  have a0 : Reachable 10 (justInTime 10) Demo.s0 := ⟨_, _, h0, .nil _⟩
  have a1 := hr a0 (.read (l := 1) (k := 0) rfl)
  have a2 := hr a1 (.prepare (l := 1) (k := 0) rfl)
  have a3 := hr a2 (.create (l := 1) (k := 0) (u := 0) rfl)
  have a4 := hr a3 (.tick _ 9)
  have a5 := hr a4 (.read (l := 2) (k := 0) rfl)
  have a6 := hr a5 (.renewStart (l := 1) (k := 0) rfl rfl)
  have a7 := hr a6 (.renew (l := 1) (k := 0) (u' := 9) rfl rfl (by
    intro x hx _
    have : x = ⟨1, 0⟩ := (Option.some.inj hx).symm
    subst this; show 9 < 0 + 10; decide))
  have a8 := hr a7 (.tick _ 1)
  have a9 := hr a8 (.check (l := 2) (k := 0) (tr := 9) (r := ⟨1, 0⟩) rfl (by show 9 ≤ 10; decide))
  have a10 := hr a9 (.steal (l := 2) (k := 0) (v := 1) (u := 10) rfl)
  exact ⟨_, a10, ⟨9, rfl, by decide⟩, ⟨10, rfl, by decide⟩⟩

/-! ## C26 -/

/-- the client a step belongs to. -/
def Ev.client : Ev → Option Nat
  | .tick => none
  | .internal l => some l
  | .obtained l => some l
  | .refused l => some l
  | .renewed l => some l
  | .renewRefused l => some l
  | .released l => some l
  | .releaseRefused l => some l
  | .failed l => some l
  | .renewFailed l => some l
  | .unlockFailed l => some l

/-- **C26** Whatever a client that obtained a lock does with it, also after it gave it back (renew, `UnLock`): rows of other clients stay as they are and no row is
made; if its own row is gone (the lock was taken over), nothing changes at all and neither `UnLock` nor the renewal reports success. -/
theorem C26_only_own_lock {ttl pol} {s s' : State} {e : Ev} {l k : Nat} (st : Step ttl pol s e s') (he : e.client = some l) (hh : (s.pc l).had = some k) :
    (∀ k' r, s.tab k' = some r → r.locker ≠ l → s'.tab k' = some r) ∧ (∀ k', s.tab k' = none → s'.tab k' = none) ∧
    ((s.tab k).map Row.locker ≠ some l → s'.tab = s.tab ∧ e ≠ .renewed l ∧ e ≠ .released l) := by
  have hcas : ∀ u', (∀ k' r, s.tab k' = some r → r.locker ≠ l → (casRow s.tab k l ⟨l, u'⟩).1 k' = some r) ∧
      (∀ k', s.tab k' = none → (casRow s.tab k l ⟨l, u'⟩).1 k' = none) ∧
      ((s.tab k).map Row.locker ≠ some l → casRow s.tab k l ⟨l, u'⟩ = (s.tab, 0)) := by
    intro u'
    unfold casRow setTab
    cases hk : s.tab k with
    | none => grind
    | some x => by_cases hx : x.locker = l <;> simp only [hx, if_true, if_false] <;> grind
  have hdel : (∀ k' r, s.tab k' = some r → r.locker ≠ l → (delRow s.tab k l).1 k' = some r) ∧
      (∀ k', s.tab k' = none → (delRow s.tab k l).1 k' = none) ∧
      ((s.tab k).map Row.locker ≠ some l → delRow s.tab k l = (s.tab, 0)) := by
    unfold delRow setTab
    cases hk : s.tab k with
    | none => grind
    | some x => by_cases hx : x.locker = l <;> simp only [hx, if_true, if_false] <;> grind
  cases st
  case unlockErr t hp ht =>
    rename_i l' k1 u1
    simp only [Ev.client, Option.some.injEq] at he
    subst he
    rw [hp] at hh; simp only [Pc.had, Option.some.injEq] at hh; subst hh
    rcases ht with rfl | rfl
    · exact ⟨fun _ _ h _ => h, fun _ h => h, fun _ => ⟨rfl, by simp, by simp⟩⟩
    · exact ⟨hdel.1, hdel.2.1, fun h => ⟨by rw [hdel.2.2 h], by simp, by simp⟩⟩
  case unlock hp =>
    rename_i l' k1 u1
    have hl : l' = l := by cases hd : (delRow s.tab k1 l').2 <;> simp_all [Ev.client]
    subst hl
    rw [hp] at hh; simp only [Pc.had, Option.some.injEq] at hh; subst hh
    exact ⟨hdel.1, hdel.2.1, fun h => ⟨by simp [hdel.2.2 h, State.at], by simp [hdel.2.2 h], by simp [hdel.2.2 h]⟩⟩
  case renewErr l' k1 u' t hp hq hr ht =>
    simp only [Ev.client, Option.some.injEq] at he
    subst he
    rw [hp] at hh; cases hh
    rcases ht with rfl | rfl
    · exact ⟨fun _ _ h _ => h, fun _ h => h, fun _ => ⟨rfl, by simp, by simp⟩⟩
    · exact ⟨(hcas _).1, (hcas _).2.1, fun h => ⟨by rw [(hcas _).2.2 h], by simp, by simp⟩⟩
  case renew l' k1 u' hp hq hr =>
    have hl : l' = l := by cases hd : (casRow s.tab k1 l' ⟨l', u'⟩).2 <;> simp_all [Ev.client]
    subst hl
    rw [hp] at hh; cases hh
    exact ⟨(hcas _).1, (hcas _).2.1, fun h => ⟨by simp [(hcas _).2.2 h, State.at, State.renAt], by simp [(hcas _).2.2 h], by simp [(hcas _).2.2 h]⟩⟩
  all_goals (simp only [Ev.client, State.at, State.renAt, Pc.had] at *; grind)

/-- Nothing is vacuous: in a run without renewals client 1 holds key 0 within its lease, while client 2 has read its row. -/
theorem demo_reachable (pol : Policy) : ∃ s, Reachable 10 pol s ∧ Within 10 s 1 0 ∧ s.pc 2 = .saw 0 ⟨1, 0⟩ 3 ∧ s.tab 0 = some ⟨1, 0⟩ := by
  have h0 : Initial Demo.s0 := ⟨fun l => ⟨rfl, 0, .inl rfl⟩, fun k r h => by simp [Demo.s0] at h⟩
  have hr : ∀ {s e s'}, Reachable 10 pol s → Step 10 pol s e s' → Reachable 10 pol s' := by
    rintro s e s' ⟨s0, es, h1, h2⟩ h3; exact ⟨s0, _, h1, .snoc h2 h3⟩
  have a0 : Reachable 10 pol Demo.s0 := ⟨_, _, h0, .nil _⟩
  have a1 := hr a0 (.read (l := 1) (k := 0) rfl)
  have a2 := hr a1 (.prepare (l := 1) (k := 0) rfl)
  have a3 := hr a2 (.create (l := 1) (k := 0) (u := 0) rfl)
  have a4 := hr a3 (.tick _ 3)
  have a5 := hr a4 (.read (l := 2) (k := 0) rfl)
  exact ⟨_, a5, ⟨0, rfl, by decide⟩, rfl, rfl⟩

example : Timely 10 (withMargin 10 2) := fun u tn tr te hr ht he => by simp only [withMargin] at hr he; omega

/-- renewing within the margin is possible, and so is losing the lock after the lease: client 1 renews at 3, client 2 takes over at 13. -/
theorem demo_renew_takeover : ∃ s, Reachable 10 (withMargin 10 2) s ∧ Holds s 1 0 3 ∧ Within 10 s 2 0 ∧ s.tab 0 = some ⟨2, 13⟩ := by
  have h0 : Initial Demo.s0 := ⟨fun l => ⟨rfl, 0, .inl rfl⟩, fun k r h => by simp [Demo.s0] at h⟩
  have hr : ∀ {s e s'}, Reachable 10 (withMargin 10 2) s → Step 10 (withMargin 10 2) s e s' → Reachable 10 (withMargin 10 2) s' := by
    rintro s e s' ⟨s0, es, h1, h2⟩ h3; exact ⟨s0, _, h1, .snoc h2 h3⟩
  have a0 : Reachable 10 (withMargin 10 2) Demo.s0 := ⟨_, _, h0, .nil _⟩
  have a1 := hr a0 (.read (l := 1) (k := 0) rfl)
  have a2 := hr a1 (.prepare (l := 1) (k := 0) rfl)
  have a3 := hr a2 (.create (l := 1) (k := 0) (u := 0) rfl)
  have a4 := hr a3 (.tick _ 3)
  have a5 := hr a4 (.renewStart (l := 1) (k := 0) rfl rfl)
  have a6 := hr a5 (.renew (l := 1) (k := 0) (u' := 3) rfl rfl (by
    intro x hx _
    have : x = ⟨1, 0⟩ := (Option.some.inj hx).symm
    subst this; show 3 + 2 < 0 + 10; decide))
  have a7 := hr a6 (.tick _ 10)
  have a8 := hr a7 (.read (l := 2) (k := 0) rfl)
  have a9 := hr a8 (.check (l := 2) (k := 0) (tr := 13) (r := ⟨1, 3⟩) rfl (by show 13 ≤ 13 ∧ 13 ≤ 13 + 2; decide))
  have a10 := hr a9 (.steal (l := 2) (k := 0) (v := 1) (u := 13) rfl)
  exact ⟨_, a10, rfl, ⟨13, rfl, by decide⟩, rfl⟩

/-! ## C27 -/

/-- the key an attempt is about. -/
def Pc.key : Pc → Nat
  | .start k => k
  | .sawNone k => k
  | .saw k _ _ => k
  | .creating k _ => k
  | .stealing k _ _ => k
  | .held k _ => k
  | .locked k => k
  | .failed k => k
  | .released k => k
  | .lost k => k
  | .stuck k => k

theorem key_restamp (u : Nat) (p : Pc) : (p.restamp u).key = p.key := by cases p <;> rfl

theorem key_step {ttl pol} {s s' : State} {e : Ev} (st : Step ttl pol s e s') (l : Nat) : (s'.pc l).key = (s.pc l).key := by
  cases st <;> simp only [State.at, State.renAt] <;> grind [Pc.key, key_restamp]

theorem now_step {ttl pol} {s s' : State} {e : Ev} (st : Step ttl pol s e s') : s.now ≤ s'.now := by
  cases st <;> simp [State.at, State.renAt]

/-- holding `k` with a time stamp of at least `u`. -/
def Pc.holdsFrom (k u : Nat) : Pc → Prop
  | .held k' u' => k' = k ∧ u ≤ u'
  | _ => False

theorem holdsFrom_iff {s : State} {l k u : Nat} : (s.pc l).holdsFrom k u ↔ ∃ u', u ≤ u' ∧ Holds s l k u' := by
  unfold Holds
  constructor
  · intro h
    cases hp : s.pc l <;> rw [hp] at h <;> simp only [Pc.holdsFrom] at h
    obtain ⟨rfl, h⟩ := h; exact ⟨_, h, rfl⟩
  · rintro ⟨u', h, hp⟩; rw [hp]; exact ⟨rfl, h⟩

theorem holdsFrom_restamp {k u u' : Nat} {p : Pc} (h : p.holdsFrom k u) (hu : u ≤ u') : (p.restamp u').holdsFrom k u := by
  cases p <;> simp_all [Pc.holdsFrom, Pc.restamp]

/-- a client goes on holding its lock until it calls `UnLock`; its time stamp only grows. -/
theorem holds_step {ttl pol} {s s' : State} {e : Ev} {l k u : Nat} (hi : Inv ttl pol s) (st : Step ttl pol s e s') (hh : Holds s l k u)
    (h1 : e ≠ .released l) (h2 : e ≠ .releaseRefused l) (h3 : e ≠ .unlockFailed l) : ∃ u', u ≤ u' ∧ Holds s' l k u' := by
  have ht := hi.times l
  have hr := hi.ren l
  rw [← holdsFrom_iff]
  unfold Holds at hh
  have hf : (s.pc l).holdsFrom k u := by rw [hh]; exact ⟨rfl, Nat.le_refl _⟩
  rw [hh] at ht hr; simp only [Pc.times, Pc.renOK] at ht hr
  cases st <;> simp only [State.at, State.renAt] at * <;> grind [Pc.holdsFrom, holdsFrom_restamp]

theorem obtained_tab {ttl pol} {s s' : State} {l' : Nat} (st : Step ttl pol s (.obtained l') s') :
    (s'.tab (s.pc l').key).map Row.locker = some l' := by
  generalize he : Ev.obtained l' = e at st
  cases st
  case create l k u hp =>
    cases hk : s.tab k with
    | none => simp only [insertRow, hk, State.at, if_true, Ev.obtained.injEq] at *; subst he; simp [hp, Pc.key, setTab]
    | some x => simp [insertRow, hk] at he
  case steal l k v u hp =>
    cases hk : s.tab k with
    | none => simp [casRow, hk] at he
    | some x =>
      by_cases hx : x.locker = v
      · simp only [casRow, hk, hx, State.at, if_true, Nat.one_ne_zero, if_false, Ev.obtained.injEq] at *; subst he; simp [hp, Pc.key, setTab]
      · simp [casRow, hk, hx] at he
  all_goals (simp only [State.at, State.renAt] at * <;> grind)

/-- **C27** With timely renewals: after a successful renewal by `l` nobody else obtains the key for `ttl` (counted from the time stamp of the renewal),
as long as `l` does not call `UnLock`. -/
theorem C27_renewal_keeps_partial {ttl pol} (ht : Timely ttl pol) {s s' s2 : State} {l k u : Nat} {es : List Ev} (hr : Reachable ttl pol s)
    (st : Step ttl pol s (.renewed l) s') (hh : Holds s' l k u) (hx : Exec ttl pol s' es s2)
    (hes : ∀ e ∈ es, e ≠ .released l ∧ e ≠ .releaseRefused l ∧ e ≠ .unlockFailed l) (hn : s2.now < u + ttl) {l' : Nat} (hl : l' ≠ l)
    (ho : .obtained l' ∈ es) : (s2.pc l').key ≠ k := by
  have hi' : Inv ttl pol s' := inv_step ht (inv_reachable ht hr) st
  have key : ∀ {es s2}, Exec ttl pol s' es s2 → (∀ e ∈ es, e ≠ .released l ∧ e ≠ .releaseRefused l ∧ e ≠ .unlockFailed l) → s2.now < u + ttl →
      Inv ttl pol s2 ∧ (∃ u', u ≤ u' ∧ Holds s2 l k u') ∧ ∀ l', l' ≠ l → .obtained l' ∈ es → (s2.pc l').key ≠ k := by
    intro es s2 hx
    induction hx with
    | nil => intro _ _; exact ⟨hi', ⟨u, Nat.le_refl _, hh⟩, by simp⟩
    | snoc _ st2 ih =>
      rename_i s1 s2 es e _
      intro hes hn
      have hnow := now_step st2
      obtain ⟨i1, ⟨u1, hu1, hh1⟩, io⟩ := ih (fun e he => hes e (by simp [he])) (by omega)
      have i2 := inv_step ht i1 st2
      obtain ⟨e1, e2, e3⟩ := hes e (by simp)
      obtain ⟨u2, hu2, hh2⟩ := holds_step i1 st2 hh1 e1 e2 e3
      refine ⟨i2, ⟨u2, by omega, hh2⟩, ?_⟩
      intro l' hl ho
      rw [key_step st2]
      rcases List.mem_append.1 ho with ho | ho
      · exact io l' hl ho
      · simp only [List.mem_singleton] at ho
        subst ho
        intro hk
        have h1 := obtained_tab st2
        rw [hk] at h1
        have h2 : (s2.tab k).map Row.locker = some l := i2.held l k u2 hh2 (by omega)
        rw [h1] at h2
        exact hl (Option.some.inj h2)
  exact (key hx hes hn).2.2 l' hl ho

/-- renewals at any time. -/
def anyTime : Policy := { renewOK := fun _ _ => True, evalOK := fun tr te => tr ≤ te }

/-- **C27** is false of the code for a late renewal: client 2 found the lease of client 1 expired and is about to take the lock over; client 1 renews
successfully; client 2 takes the lock over right after. -/
theorem C27_late_renewal_lost : ∃ s s' s2, Reachable 10 anyTime s ∧ Step 10 anyTime s (.renewed 1) s' ∧ Holds s' 1 0 10 ∧
    Step 10 anyTime s' (.obtained 2) s2 ∧ Holds s2 2 0 10 ∧ s2.now = 10 := by
  have h0 : Initial Demo.s0 := ⟨fun l => ⟨rfl, 0, .inl rfl⟩, fun k r h => by simp [Demo.s0] at h⟩
  have hr : ∀ {s e s'}, Reachable 10 anyTime s → Step 10 anyTime s e s' → Reachable 10 anyTime s' := by
    rintro s e s' ⟨s0, es, h1, h2⟩ h3; exact ⟨s0, _, h1, .snoc h2 h3⟩
  have a0 : Reachable 10 anyTime Demo.s0 := ⟨_, _, h0, .nil _⟩
  have a1 := hr a0 (.read (l := 1) (k := 0) rfl)
  have a2 := hr a1 (.prepare (l := 1) (k := 0) rfl)
  have a3 := hr a2 (.create (l := 1) (k := 0) (u := 0) rfl)
  have a4 := hr a3 (.tick _ 10)
  have a5 := hr a4 (.read (l := 2) (k := 0) rfl)
  have a6 := hr a5 (.check (l := 2) (k := 0) (tr := 10) (r := ⟨1, 0⟩) rfl (by show 10 ≤ 10; decide))
  have a7 := hr a6 (.renewStart (l := 1) (k := 0) rfl rfl)
  exact ⟨_, _, _, a7, .renew (l := 1) (k := 0) (u' := 10) rfl rfl (fun _ _ _ => trivial), rfl,
    .steal (l := 2) (k := 0) (v := 1) (u := 10) rfl, rfl, rfl⟩

/-! ## C28 -/

theorem retryDo_spec (att : Nat → Att) : ∀ n i, 0 < n →
    ∃ m, (retryDo att n i).2 = i + m + 1 ∧ m < n ∧ (∀ j, j < m → att (i + j) = .locked) ∧ (retryDo att n i).1 = att (i + m) ∧
      (att (i + m) = .locked → m + 1 = n) := by
  intro n
  induction n with
  | zero => intro i h; omega
  | succ n ih =>
    intro i _
    unfold retryDo
    cases ha : att i with
    | ok => exact ⟨0, rfl, by omega, by omega, by simp [ha], by simp [ha]⟩
    | err => exact ⟨0, rfl, by omega, by omega, by simp [ha], by simp [ha]⟩
    | locked =>
      by_cases hn : n = 0
      · subst hn; exact ⟨0, by simp, by omega, by omega, by simp [ha], by simp⟩
      · obtain ⟨m, h1, h2, h3, h4, h5⟩ := ih (i + 1) (by omega)
        simp only [hn, if_false]
        refine ⟨m + 1, by omega, by omega, ?_, ?_, ?_⟩
        · intro j hj
          cases j with
          | zero => exact ha
          | succ j => have := h3 j (by omega); rwa [show i + (j + 1) = i + 1 + j from by omega]
        · rw [show i + (m + 1) = i + 1 + m from by omega]; exact h4
        · rw [show i + (m + 1) = i + 1 + m from by omega]; intro h; have := h5 h; omega

/-- **C28** `Lock` makes between one and five attempts, every attempt but the last was refused because the key is locked, its answer is the answer of the last
attempt (so it returns the first success, or the first other error), and it answers "locked" only after five attempts; without `Retry` there is one attempt. -/
theorem C28_bounded_retry (retry : Bool) (att : Nat → Att) :
    ∃ m, (lockCall retry att).2 = m + 1 ∧ m < 5 ∧ (∀ j, j < m → att j = .locked) ∧ (lockCall retry att).1 = att m ∧
      (retry = true → att m = .locked → m = 4) ∧ (retry = false → m = 0) := by
  unfold lockCall
  cases retry with
  | false => exact ⟨0, by simp⟩
  | true =>
    obtain ⟨m, h1, h2, h3, h4, h5⟩ := retryDo_spec att 5 0 (by omega)
    simp only [if_true]
    refine ⟨m, by omega, h2, ?_, ?_, ?_, by simp⟩
    · intro j hj; simpa using h3 j hj
    · simpa using h4
    · intro _ h; have := h5 (by simpa using h); omega

example : lockCall true (fun i => if i < 3 then .locked else .ok) = (.ok, 4) ∧ lockCall true (fun _ => .locked) = (.locked, 5) ∧
    lockCall false (fun _ => .locked) = (.locked, 1) := by decide

/-- an attempt that nobody disturbed, on a key whose row was `t0` and is `t`. -/
def Pc.undisturbed (k : Nat) (t0 t : Option Row) : Pc → Prop
  | .start k' => k' = k ∧ t = t0
  | .sawNone k' => k' = k ∧ t = none
  | .saw k' r _ => k' = k ∧ t = some r ∧ t0 = some r
  | .creating k' _ => k' = k ∧ t = none
  | .stealing k' v _ => k' = k ∧ t.map Row.locker = some v
  | .locked _ => False
  | _ => True

theorem undisturbed_restamp {k u : Nat} {t0 t' : Option Row} {p : Pc} {k' : Nat} (hp : p.had = some k') : (p.restamp u).undisturbed k t0 t' := by
  cases p <;> simp_all [Pc.had, Pc.restamp, Pc.undisturbed]

theorem undisturbed_had {k : Nat} {t0 t' : Option Row} {p : Pc} {k' : Nat} (hp : p.had = some k') : p.undisturbed k t0 t' := by
  cases p <;> simp_all [Pc.had, Pc.undisturbed]

theorem undisturbed_step {ttl pol} {s s' : State} {e : Ev} {l k : Nat} {t0 : Option Row} (st : Step ttl pol s e s')
    (he : e.client = none ∨ e.client = some l) (ht : ∀ r, t0 = some r → r.updated + ttl ≤ s.now) (h : (s.pc l).undisturbed k t0 (s.tab k)) :
    (s'.pc l).undisturbed k t0 (s'.tab k) ∧ e ≠ .refused l := by
  cases st
  case create l' k' u hp =>
    cases hk : s.tab k' with
    | none => simp only [insertRow, hk, State.at, State.renAt, if_true, Ev.client, setTab] at he ⊢; grind [Pc.undisturbed, undisturbed_restamp, undisturbed_had]
    | some x => simp only [insertRow, hk, State.at, State.renAt, Bool.false_eq_true, if_false, Ev.client, setTab] at he ⊢; grind [Pc.undisturbed, undisturbed_restamp, undisturbed_had]
  case steal l' k' v u hp =>
    cases hk : s.tab k' with
    | none => simp only [casRow, hk, State.at, State.renAt, if_true, Ev.client, setTab] at he ⊢; grind [Pc.undisturbed, undisturbed_restamp, undisturbed_had]
    | some x =>
      by_cases hx : x.locker = v
      · simp only [casRow, hk, hx, State.at, State.renAt, if_true, Nat.one_ne_zero, if_false, Ev.client, setTab] at he ⊢; grind [Pc.undisturbed, undisturbed_restamp, undisturbed_had]
      · simp only [casRow, hk, hx, State.at, State.renAt, if_true, if_false, Ev.client, setTab] at he ⊢; grind [Pc.undisturbed, undisturbed_restamp, undisturbed_had]
  case check l' k' tr r hp hev =>
    by_cases hn : s.now < r.updated + ttl <;> simp only [hn, if_true, if_false, State.at, State.renAt, Ev.client] at he ⊢ <;> grind [Pc.undisturbed, undisturbed_restamp, undisturbed_had]
  case renew l' k' u' hp ho hr => 
    cases hk : (casRow s.tab k' l' ⟨l', u'⟩).2 <;> simp only [hk, State.at, State.renAt, Ev.client, if_true, if_false, Nat.add_eq_zero_iff, Nat.one_ne_zero, and_false] at he ⊢ <;> grind [Pc.undisturbed, undisturbed_restamp, undisturbed_had]
  case unlock l' k' u hp => 
    cases hk : (delRow s.tab k' l').2 <;> simp only [hk, State.at, State.renAt, Ev.client, if_true, if_false, Nat.add_eq_zero_iff, Nat.one_ne_zero, and_false] at he ⊢ <;> grind [Pc.undisturbed, undisturbed_restamp, undisturbed_had]
  all_goals (simp only [State.at, State.renAt, Ev.client] at he ⊢; grind [Pc.undisturbed, undisturbed_restamp, undisturbed_had])

/-- **C28** A free or expired key is obtained by the first attempt when nobody interferes: whatever only `l` (and time) does, `l` is never
refused; and it can obtain the key. -/
theorem C28_free_key_obtained {ttl : Nat} {pol : Policy} {s : State} {l k : Nat} (hp : s.pc l = .start k)
    (hk : ∀ r, s.tab k = some r → r.updated + ttl ≤ s.now) :
    (∀ es s2, Exec ttl pol s es s2 → (∀ e ∈ es, e.client = none ∨ e.client = some l) → .refused l ∉ es) ∧
    ((∀ t, pol.evalOK t t) → ∃ es s2, Exec ttl pol s es s2 ∧ (∀ e ∈ es, e.client = some l) ∧ .obtained l ∈ es ∧ Holds s2 l k s2.now) := by
  constructor
  · have key : ∀ {es s2}, Exec ttl pol s es s2 → (∀ e ∈ es, e.client = none ∨ e.client = some l) →
        .refused l ∉ es ∧ s.now ≤ s2.now ∧ (s2.pc l).undisturbed k (s.tab k) (s2.tab k) := by
      intro es s2 hx
      induction hx with
      | nil => intro _; exact ⟨by simp, by omega, by rw [hp]; exact ⟨rfl, rfl⟩⟩
      | snoc _ st ih =>
        rename_i s1 s2 es e _
        intro hes
        obtain ⟨h1, h2, h3⟩ := ih fun e he => hes e (by simp [he])
        have hnow := now_step st
        obtain ⟨h4, h5⟩ := undisturbed_step st (hes e (by simp)) (fun r hr => by have := hk r hr; omega) h3
        exact ⟨by simp [h1, Ne.symm h5], by omega, h4⟩
    intro es s2 hx hes
    exact (key hx hes).1
  · intro hev
    cases ht : s.tab k with
    | none =>
      have a1 := Step.read (ttl := ttl) (pol := pol) hp
      rw [ht] at a1
      have a2 := Step.prepare (ttl := ttl) (pol := pol) (s := s.at l (.sawNone k)) (l := l) (k := k) (by simp [State.at])
      have a3 := Step.create (ttl := ttl) (pol := pol) (s := (s.at l (.sawNone k)).at l (.creating k s.now)) (l := l) (k := k) (u := s.now) (by simp [State.at])
      have hi : (insertRow ((s.at l (.sawNone k)).at l (.creating k s.now)).tab k ⟨l, s.now⟩).2 = true := by simp [State.at, insertRow, ht]
      simp only [hi, if_true] at a3
      refine ⟨_, _, .snoc (.snoc (.snoc (.nil s) a1) a2) a3, ?_, by simp, ?_⟩
      · simp [Ev.client]
      · simp [Holds, State.at]
    | some r =>
      have hr := hk r ht
      have a1 := Step.read (ttl := ttl) (pol := pol) hp
      rw [ht] at a1
      have a2 := Step.check (ttl := ttl) (pol := pol) (s := s.at l (.saw k r s.now)) (l := l) (k := k) (r := r) (tr := s.now) (by simp [State.at]) (hev _)
      have hc : ¬ (s.at l (.saw k r s.now)).now < r.updated + ttl := by simp only [State.at]; omega
      simp only [hc, if_false] at a2
      have a3 := Step.steal (ttl := ttl) (pol := pol) (s := (s.at l (.saw k r s.now)).at l (.stealing k r.locker s.now)) (l := l) (k := k) (v := r.locker) (u := s.now) (by simp [State.at])
      have hi : ¬ (casRow ((s.at l (.saw k r s.now)).at l (.stealing k r.locker s.now)).tab k r.locker ⟨l, s.now⟩).2 = 0 := by simp [State.at, casRow, ht]
      simp only [hi, if_false] at a3
      refine ⟨_, _, .snoc (.snoc (.snoc (.nil s) a1) a2) a3, ?_, by simp, ?_⟩
      · simp [Ev.client]
      · simp [Holds, State.at]

end Ddd.Lock
