import Verif.Spec.LockRun
import Verif.Props.Lockers
/-! # Invariants of `DBLock.Run` -/
set_option linter.unusedVariables false
set_option linter.unusedSimpArgs false
namespace Ddd.Lock

theorem frame_step {ttl pol} {s t : State} {e : Ev} (st : Step ttl pol s e t) {l l' : Nat} (he : e.client = some l) (hl : l' ≠ l) :
    t.pc l' = s.pc l' ∧ t.ren l' = s.ren l' := by
  cases st
  case create => rename_i l0 k u hp; cases hb : (insertRow s.tab k ⟨l0, u⟩).2 <;> simp_all [Ev.client, State.at]
  case check => rename_i l0 k tr r hp hev; by_cases hb : s.now < r.updated + ttl <;> simp_all [Ev.client, State.at]
  case steal => rename_i l0 k v u hp; cases hb : (casRow s.tab k v ⟨l0, u⟩).2 <;> simp_all [Ev.client, State.at]
  case renew => rename_i l0 k u' hp ho hr; cases hb : (casRow s.tab k l0 ⟨l0, u'⟩).2 <;> simp_all [Ev.client, State.at, State.renAt]
  case unlock => rename_i l0 k u hp; cases hb : (delRow s.tab k l0).2 <;> simp_all [Ev.client, State.at]
  all_goals simp_all [Ev.client, State.at, State.renAt]

theorem had_restamp (u : Nat) (p : Pc) : (p.restamp u).had = p.had := by cases p <;> rfl

theorem had_step {ttl pol} {s t : State} {e : Ev} (st : Step ttl pol s e t) {l k : Nat} (h : (s.pc l).had = some k) : (t.pc l).had = some k := by
  cases st <;> simp only [State.at, State.renAt] at * <;> grind [Pc.had, had_restamp]

theorem had_internal {ttl pol} {s t : State} {l : Nat} (st : Step ttl pol s (.internal l) t) (h : (s.pc l).had = none) : (t.pc l).had = none := by
  generalize he : Ev.internal l = e at st
  cases st <;> simp only [State.at, State.renAt] at * <;> grind [Pc.had]

theorem now_of_client {ttl pol} {s t : State} {e : Ev} (st : Step ttl pol s e t) {l : Nat} (he : e.client = some l) : t.now = s.now := by
  cases st <;> simp_all [Ev.client, State.at, State.renAt]

theorem obtained_held {ttl pol} {s t : State} {l : Nat} (st : Step ttl pol s (.obtained l) t) : ∃ u, t.pc l = .held (s.pc l).key u := by
  obtain ⟨k, u, h⟩ := obtained_holds st
  have := key_step st l
  rw [h] at this
  exact ⟨u, by rw [h, ← this]; rfl⟩

theorem ins_locker {t : Tab} {k k' l l' u : Nat} (h : ((insertRow t k' ⟨l', u⟩).1 k).map Row.locker = some l) : l' = l ∨ (t k).map Row.locker = some l := by
  unfold insertRow setTab at h; cases hk : t k' <;> simp only [hk] at h <;> grind

theorem cas_locker {t : Tab} {k k' v l l' u : Nat} (h : ((casRow t k' v ⟨l', u⟩).1 k).map Row.locker = some l) :
    (k = k' ∧ l' = l ∧ (t k).map Row.locker = some v) ∨ (t k).map Row.locker = some l := by
  unfold casRow setTab at h
  cases hk : t k' with
  | none => simp only [hk] at h; exact .inr h
  | some x => by_cases hx : x.locker = v <;> simp only [hk, hx, if_true, if_false] at h <;> grind

theorem del_locker {t : Tab} {k k' v l : Nat} (h : ((delRow t k' v).1 k).map Row.locker = some l) : (t k).map Row.locker = some l := by
  unfold delRow setTab at h
  cases hk : t k' with
  | none => simp only [hk] at h; exact h
  | some x => by_cases hx : x.locker = v <;> simp only [hk, hx, if_true, if_false] at h <;> grind

/-- the row of a client that had the lock, once gone, does not come back. -/
theorem gone_step {ttl pol} {s t : State} {e : Ev} (st : Step ttl pol s e t) {l k : Nat} (h : (s.pc l).had = some k) (hr : (s.tab k).map Row.locker ≠ some l) :
    (t.tab k).map Row.locker ≠ some l := by
  have hl : ∀ k u, s.pc l ≠ .creating k u := by intro k u hp; rw [hp] at h; simp [Pc.had] at h
  have hl2 : ∀ k v u, s.pc l ≠ .stealing k v u := by intro k v u hp; rw [hp] at h; simp [Pc.had] at h
  intro hc
  cases st
  all_goals (simp only [State.at, State.renAt] at *)
  case create => rcases ins_locker hc with rfl | h1 <;> grind
  case createErr ht => rcases ht with rfl | rfl <;> [exact hr hc; (rcases ins_locker hc with rfl | h1 <;> grind)]
  case steal => rcases cas_locker hc with ⟨-, rfl, -⟩ | h1 <;> grind
  case stealErr ht => rcases ht with rfl | rfl <;> [exact hr hc; (rcases cas_locker hc with ⟨-, rfl, -⟩ | h1 <;> grind)]
  case renew => rcases cas_locker hc with ⟨-, rfl, h2⟩ | h2 <;> exact hr h2
  case renewErr ht => rcases ht with rfl | rfl <;> [exact hr hc; (rcases cas_locker hc with ⟨-, rfl, h2⟩ | h2 <;> exact hr h2)]
  case unlock => exact hr (del_locker hc)
  case unlockErr ht => rcases ht with rfl | rfl <;> [exact hr hc; exact hr (del_locker hc)]
  all_goals exact hr hc

theorem refused_renewal {ttl pol} {s t : State} {l k : Nat} (h : (s.pc l).had = some k) (hr : (s.tab k).map Row.locker ≠ some l) : ¬ Step ttl pol s (.renewed l) t :=
  fun st => (C26_only_own_lock st rfl h).2.2 hr |>.2.1 rfl

end Ddd.Lock

namespace Ddd.LockRun
open Lock (Pc)

/-- who owns which locker ID, and what the lock knows about it. -/
structure Base (s : State) : Prop where
  trying : ∀ r n l, s.job r = .trying n l → s.drawn l = some r ∧ (s.lock.pc l).key = s.key r ∧ (s.lock.pc l).had = none ∧ s.helper r = .off ∧ s.tick r = false
  idle : ∀ r, s.job r = .idle → s.helper r = .off ∧ s.tick r = false
  got : ∀ r l, s.job r = .got l → s.drawn l = some r ∧ (∃ u, s.lock.pc l = .held (s.key r) u) ∧ s.helper r = .off ∧ s.tick r = false
  running : ∀ r l, s.job r = .running l → s.drawn l = some r ∧ (∃ u, s.lock.pc l = .held (s.key r) u) ∧ (s.helper r = .waiting l ∨ s.helper r = .renewing l ∨ s.helper r = .gone)
  leaving : ∀ r l p, s.job r = .leaving l p → s.drawn l = some r ∧ (∃ u, s.lock.pc l = .held (s.key r) u)
  waiting : ∀ r l, s.helper r = .waiting l → s.drawn l = some r ∧ (s.lock.pc l).had = some (s.key r)
  renewing : ∀ r l, s.helper r = .renewing l → s.drawn l = some r ∧ (s.lock.pc l).had = some (s.key r)
  told : ∀ r, s.helper r = .gone ↔ s.cancelled r = true

theorem base_initial {s : State} (h : Initial s) : Base s := by
  obtain ⟨h0, h1, h2⟩ := h
  constructor <;> grind

theorem lock_step {c : Conf} {pol : Lock.Policy} {s s' : State} {e : Ev} (st : Step c pol s e s') : s'.lock = s.lock ∨ ∃ e, Lock.Step c.ttl pol s.lock e s'.lock := by
  cases st
  case time d => exact .inr ⟨_, .tick _ d⟩
  all_goals first
    | exact .inl rfl
    | exact .inr ⟨_, ‹Lock.Step _ _ _ _ _›⟩


set_option maxHeartbeats 4000000 in
theorem base_step {c : Conf} {pol : Lock.Policy} {s s' : State} {e : Ev} (h : Base s) (st : Step c pol s e s') : Base s' := by
  obtain ⟨h1, h2, h3, h4, h5, h6, h7, h8⟩ := h
  cases st with
  | time d => exact ⟨h1, h2, h3, h4, h5, h6, h7, h8⟩
  | cancel r => exact ⟨h1, h2, h3, h4, h5, h6, h7, h8⟩
  | call hj hd hp => constructor <;> simp only [upd] <;> grind [Pc.key, Pc.had]
  | begins hj hi => constructor <;> simp only [upd] <;> grind [Pc.key, Pc.had]
  | noTicker hj hi => constructor <;> simp only [upd] <;> grind [Pc.key, Pc.had]
  | ring hj hd => constructor <;> simp only [upd] <;> grind [Pc.key, Pc.had]
  | finishes p hj => constructor <;> simp only [upd] <;> grind [Pc.key, Pc.had]
  | @other l e t hd st1 he hren =>
    have hc : e.client = some l := by rcases he with rfl | rfl | rfl | rfl | rfl | rfl | rfl <;> rfl
    have fr : ∀ l', l' ≠ l → t.pc l' = s.lock.pc l' := fun l' hl => (Lock.frame_step st1 hc hl).1
    constructor <;> simp only [upd] <;> grind [Pc.key, Pc.had]
  | @attempt r n l t hj st1 ho =>
    have fr : ∀ l', l' ≠ l → t.pc l' = s.lock.pc l' := fun l' hl => (Lock.frame_step st1 rfl hl).1
    have k1 := Lock.key_step st1 l
    have k2 := Lock.had_internal st1 (h1 r n l hj).2.2.1
    constructor <;> simp only [upd] <;> grind [Pc.key, Pc.had]
  | @again r n l l' t hj st1 ho hd hp =>
    have fr : ∀ l', l' ≠ l → t.pc l' = s.lock.pc l' := fun l' hl => (Lock.frame_step st1 rfl hl).1
    constructor <;> simp only [upd] <;> grind [Pc.key, Pc.had]
  | @giveUp r l t hj st1 ho =>
    have fr : ∀ l', l' ≠ l → t.pc l' = s.lock.pc l' := fun l' hl => (Lock.frame_step st1 rfl hl).1
    constructor <;> simp only [upd] <;> grind [Pc.key, Pc.had]
  | @failed r n l t hj st1 ho =>
    have fr : ∀ l', l' ≠ l → t.pc l' = s.lock.pc l' := fun l' hl => (Lock.frame_step st1 rfl hl).1
    constructor <;> simp only [upd] <;> grind [Pc.key, Pc.had]
  | @obtained r n l t hj st1 ho =>
    have fr : ∀ l', l' ≠ l → t.pc l' = s.lock.pc l' := fun l' hl => (Lock.frame_step st1 rfl hl).1
    have k1 := Lock.obtained_held st1
    constructor <;> simp only [upd] <;> grind [Pc.key, Pc.had]
  | @wake r l t hj ht st1 hn =>
    have fr : ∀ l', l' ≠ l → t.pc l' = s.lock.pc l' := fun l' hl => (Lock.frame_step st1 rfl hl).1
    have k1 := Lock.had_step st1 (h6 r l hj).2
    have k2 : ∀ k u, s.lock.pc l = .held k u → ∃ u', t.pc l = .held k u' := fun k u hh => Lock.holds_on st1 hh (by simp) (by simp) (by simp)
    constructor <;> simp only [upd] <;> grind [Pc.key, Pc.had]
  | @renewed r l t hj st1 ho =>
    have fr : ∀ l', l' ≠ l → t.pc l' = s.lock.pc l' := fun l' hl => (Lock.frame_step st1 rfl hl).1
    have k1 := Lock.had_step st1 (h7 r l hj).2
    have k2 : ∀ k u, s.lock.pc l = .held k u → ∃ u', t.pc l = .held k u' := fun k u hh => Lock.holds_on st1 hh (by simp) (by simp) (by simp)
    constructor <;> simp only [upd] <;> grind [Pc.key, Pc.had]
  | @notRenewed r l t e hj st1 he ho =>
    have hc : e.client = some l := by rcases he with rfl | rfl <;> rfl
    have fr : ∀ l', l' ≠ l → t.pc l' = s.lock.pc l' := fun l' hl => (Lock.frame_step st1 hc hl).1
    have k1 := Lock.had_step st1 (h7 r l hj).2
    have k2 : ∀ k u, s.lock.pc l = .held k u → ∃ u', t.pc l = .held k u' := fun k u hh =>
      Lock.holds_on st1 hh (by rcases he with rfl | rfl <;> simp) (by rcases he with rfl | rfl <;> simp) (by rcases he with rfl | rfl <;> simp)
    constructor <;> simp only [upd] <;> grind [Pc.key, Pc.had]
  | @released r l p t hj st1 ho =>
    have fr : ∀ l', l' ≠ l → t.pc l' = s.lock.pc l' := fun l' hl => (Lock.frame_step st1 rfl hl).1
    have k1 : ∀ k, (s.lock.pc l).had = some k → (t.pc l).had = some k := fun k h => Lock.had_step st1 h
    constructor <;> simp only [upd] <;> grind [Pc.key, Pc.had]
  | @notReleased r l p t e hj st1 he ho =>
    have hc : e.client = some l := by rcases he with rfl | rfl <;> rfl
    have fr : ∀ l', l' ≠ l → t.pc l' = s.lock.pc l' := fun l' hl => (Lock.frame_step st1 hc hl).1
    have k1 : ∀ k, (s.lock.pc l).had = some k → (t.pc l).had = some k := fun k h => Lock.had_step st1 h
    constructor <;> simp only [upd] <;> grind [Pc.key, Pc.had]

theorem base_exec {c : Conf} {pol : Lock.Policy} {s0 s : State} {es : List Ev} (hx : Exec c pol s0 es s) (h0 : Base s0) : Base s := by
  induction hx with
  | nil => exact h0
  | snoc _ st ih => exact base_step ih st

theorem lock_exec {c : Conf} {pol : Lock.Policy} {s0 s : State} {es : List Ev} (hx : Exec c pol s0 es s) : ∃ es', Lock.Exec c.ttl pol s0.lock es' s.lock := by
  induction hx with
  | nil => exact ⟨_, .nil _⟩
  | snoc _ st ih =>
    obtain ⟨es', h⟩ := ih
    rcases lock_step st with h1 | ⟨e, h1⟩
    · rw [h1]; exact ⟨_, h⟩
    · exact ⟨_, .snoc h h1⟩

end Ddd.LockRun
