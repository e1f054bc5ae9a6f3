import Verif.Props.LockRun
/-!
# C94: callbacks of prompt calls do not overlap
-/
set_option linter.unusedVariables false
set_option linter.unusedSimpArgs false
namespace Ddd.Lock

theorem ins_row {t : Tab} {k k' l' u : Nat} {x : Row} (h : (insertRow t k' ⟨l', u⟩).1 k = some x) : x.locker = l' ∨ t k = some x := by
  unfold insertRow setTab at h; cases hk : t k' <;> simp only [hk] at h <;> grind

theorem cas_row {t : Tab} {k k' v l' u : Nat} {x : Row} (h : (casRow t k' v ⟨l', u⟩).1 k = some x) : x.locker = l' ∨ t k = some x := by
  unfold casRow setTab at h
  cases hk : t k' with
  | none => simp only [hk] at h; exact .inr h
  | some y => by_cases hx : y.locker = v <;> simp only [hk, hx, if_true, if_false] at h <;> grind

theorem del_row {t : Tab} {k k' v : Nat} {x : Row} (h : (delRow t k' v).1 k = some x) : t k = some x := by
  unfold delRow setTab at h
  cases hk : t k' with
  | none => simp only [hk] at h; exact h
  | some y => by_cases hx : y.locker = v <;> simp only [hk, hx, if_true, if_false] at h <;> grind

/-- the row of a client that had the lock is changed by its renewals only. -/
theorem row_back {ttl pol} {s t : State} {e : Ev} (st : Step ttl pol s e t) {l k k' : Nat} {x : Row} (h : (s.pc l).had = some k') (hx : t.tab k = some x) (hl : x.locker = l) :
    s.tab k = some x ∨ e = .renewed l ∨ e = .renewFailed l := by
  have hl1 : ∀ k u, s.pc l ≠ .creating k u := by intro k u hp; rw [hp] at h; simp [Pc.had] at h
  have hl2 : ∀ k v u, s.pc l ≠ .stealing k v u := by intro k v u hp; rw [hp] at h; simp [Pc.had] at h
  cases st
  all_goals (simp only [State.at, State.renAt] at hx)
  case create hp => rcases ins_row hx with h1 | h1 <;> [(exfalso; grind); exact .inl h1]
  case createErr hp ht => rcases ht with rfl | rfl <;> [exact .inl hx; (rcases ins_row hx with h1 | h1 <;> [(exfalso; grind); exact .inl h1])]
  case steal hp => rcases cas_row hx with h1 | h1 <;> [(exfalso; grind); exact .inl h1]
  case stealErr hp ht => rcases ht with rfl | rfl <;> [exact .inl hx; (rcases cas_row hx with h1 | h1 <;> [(exfalso; grind); exact .inl h1])]
  case renew l' k1 u' hp ho hr =>
    by_cases hll : l' = l
    · subst hll
      by_cases hz : (casRow s.tab k1 l' ⟨l', u'⟩).2 = 0
      · left
        unfold casRow at hz hx
        cases hk : s.tab k1 with
        | none => simpa [hk] using hx
        | some y => by_cases hy : y.locker = l' <;> simp [hk, hy] at hx hz; exact hx
      · right; left; simp [hz]
    · rcases cas_row hx with h1 | h1 <;> [(exfalso; grind); exact .inl h1]
  case renewErr l' k1 u' t hp ho hr ht =>
    by_cases hll : l' = l
    · subst hll; simp
    · rcases ht with rfl | rfl <;> [exact .inl hx; (rcases cas_row hx with h1 | h1 <;> [(exfalso; grind); exact .inl h1])]
  case unlock => exact .inl (del_row hx)
  case unlockErr ht => rcases ht with rfl | rfl <;> [exact .inl hx; exact .inl (del_row hx)]
  all_goals exact .inl hx

theorem renewed_row {ttl pol} {s t : State} {l k u' : Nat} (st : Step ttl pol s (.renewed l) t) (h : (s.pc l).had = some k) (hr : s.ren l = some u') :
    t.tab k = some ⟨l, u'⟩ ∧ ∀ k' u, t.pc l = .held k' u → u = u' := by
  generalize he : Ev.renewed l = e at st
  cases st
  case renew l' k1 u1 hp ho hr =>
    by_cases hz : (casRow s.tab k1 l' ⟨l', u1⟩).2 = 0
    · rw [if_pos hz] at he; simp at he
    · rw [if_neg hz] at he
      simp only [Ev.renewed.injEq] at he
      subst he
      obtain rfl : k1 = k := by rw [hp] at h; simpa using h
      obtain rfl : u1 = u' := by simp_all
      constructor
      · unfold casRow at hz ⊢
        cases hk : s.tab k1 with
        | none => simp [hk] at hz
        | some y => by_cases hy : y.locker = l <;> simp [hk, hy, setTab] at hz ⊢
      · intro k' u hu
        simp only [State.at, State.renAt, if_true, hz, if_false] at hu
        cases hq : s.pc l <;> rw [hq] at hp hu <;> simp_all [Pc.had, Pc.restamp]
  all_goals (simp only [State.at, State.renAt] at * <;> grind)

theorem held_same {ttl pol} {s t : State} {e : Ev} {l k k' u u' : Nat} (st : Step ttl pol s e t) (h : s.pc l = .held k u) (h' : t.pc l = .held k' u') (he : e ≠ .renewed l) : u' = u := by
  cases st <;> simp only [State.at, State.renAt] at * <;> grind [Pc.restamp]

theorem held_back {ttl pol} {s t : State} {e : Ev} {l k k0 u : Nat} (st : Step ttl pol s e t) (h : (s.pc l).had = some k0) (h' : t.pc l = .held k u) : ∃ u0, s.pc l = .held k u0 := by
  cases hp : s.pc l <;> rw [hp] at h <;> simp only [Pc.had, Option.some.injEq, reduceCtorEq] at h
  all_goals (cases st <;> simp only [State.at, State.renAt] at * <;> grind [Pc.restamp])

theorem ren_keep {ttl pol} {s t : State} {e : Ev} {l u : Nat} (st : Step ttl pol s e t) (h : s.ren l = some u) (he : e ≠ .renewed l ∧ e ≠ .renewRefused l ∧ e ≠ .renewFailed l) : t.ren l = some u := by
  cases st <;> simp only [State.at, State.renAt] at * <;> grind

/-- timing assumptions are on renewals and on checks only. -/
theorem repolicy {ttl : Nat} {pol pol' : Policy} {s t : State} {e : Ev} (st : Step ttl pol s e t) (hev : ∀ a b, pol.evalOK a b → pol'.evalOK a b)
    (hr : ∀ l k, e = .renewed l ∨ e = .renewRefused l ∨ e = .renewFailed l → (s.pc l).had = some k → ∀ x, s.tab k = some x → x.locker = l → pol'.renewOK x.updated s.now) :
    Step ttl pol' s e t := by
  cases st
  case tick d => exact .tick s d
  case read h => exact .read h
  case readErr h => exact .readErr h
  case prepare h => exact .prepare h
  case create h => exact .create h
  case createErr t h ht => exact .createErr t h ht
  case check h he => exact .check h (hev _ _ he)
  case steal h => exact .steal h
  case stealErr t h ht => exact .stealErr t h ht
  case renewStart h ho => exact .renewStart h ho
  case renew l k u' h ho h2 => 
    refine .renew h ho (hr l k ?_ h)
    by_cases hz : (casRow s.tab k l ⟨l, u'⟩).2 = 0 <;> simp [hz]
  case renewErr l k u' t h ho h2 ht => exact .renewErr t h ho (hr l k (by simp) h) ht
  case unlock h => exact .unlock h
  case unlockErr t h ht => exact .unlockErr t h ht

end Ddd.Lock

namespace Ddd.LockRun
open Lock (Pc)

/-- a tick is waiting or being handled. -/
def Pending (s : State) (r : Nat) : Prop := s.tick r = true ∨ ∃ l, s.helper r = .renewing l

/-- the time stamp `u` of call `r` is recent. -/
def Recent (c : Conf) (d : Nat) (s : State) (r u : Nat) : Prop :=
  (s.tick r = true → s.due r ≤ u + 2 * c.interval + d) ∧ (∀ l, s.helper r = .renewing l → s.due r ≤ u + 2 * c.interval + d) ∧
  (s.tick r = false → ∀ l, s.helper r = .waiting l → s.due r ≤ u + c.interval + d)

/-- the time stamps of prompt calls are recent. -/
structure Fresh (c : Conf) (d : Nat) (s : State) : Prop where
  row : ∀ r l x, s.helper r = .waiting l ∨ s.helper r = .renewing l → s.lock.tab (s.key r) = some x → x.locker = l → Recent c d s r x.updated
  held : ∀ r l k u, s.helper r = .waiting l ∨ s.helper r = .renewing l → s.lock.pc l = .held k u → Recent c d s r u
  tick : ∀ r, s.tick r = true → s.due r ≤ s.lock.now + c.interval
  ren : ∀ r l, s.helper r = .renewing l → s.tick r = false ∧ ∃ u, s.lock.ren l = some u ∧ s.due r ≤ u + c.interval

theorem lock_timed {c : Conf} {d : Nat} {s s' : State} {e : Ev} (hd : d < c.interval) (ht : c.interval + 3 * d < c.ttl) (hb : Base s) (hf : Fresh c d s) (hp : Prompt c d s)
    (st : Step c (checksWithin d) s e s') : s'.lock = s.lock ∨ ∃ e, Lock.Step c.ttl (Lock.withMargin c.ttl d) s.lock e s'.lock := by
  have plain : ∀ {e t}, Lock.Step c.ttl (checksWithin d) s.lock e t → (∀ l, e ≠ .renewed l ∧ e ≠ .renewRefused l ∧ e ≠ .renewFailed l) →
      Lock.Step c.ttl (Lock.withMargin c.ttl d) s.lock e t := by
    intro e t h1 h2
    refine Lock.repolicy h1 (fun a b h => h) ?_
    intro l k h; have := h2 l; tauto
  have timed : ∀ {e t r l}, s.helper r = .renewing l → Lock.Step c.ttl (checksWithin d) s.lock e t → e = .renewed l ∨ e = .renewRefused l ∨ e = .renewFailed l →
      Lock.Step c.ttl (Lock.withMargin c.ttl d) s.lock e t := by
    intro e t r l hh h1 h2
    refine Lock.repolicy h1 (fun a b h => h) ?_
    intro l' k h3 hk x hx hxl
    obtain rfl : l' = l := by rcases h2 with rfl | rfl | rfl <;> simp at h3 <;> exact h3.symm
    obtain ⟨-, h4⟩ := hb.renewing r l' hh
    obtain rfl : k = s.key r := by rw [h4] at hk; simpa using hk.symm
    have h5 := (hf.row r l' x (.inr hh) hx hxl).2.1 l' hh
    have h6 := (hp r).2.2 (.inr ⟨_, hh⟩)
    show s.lock.now + d < x.updated + c.ttl
    omega
  cases st
  case time d => exact .inr ⟨_, .tick _ d⟩
  case other he hren => rename_i h; exact .inr ⟨_, plain h (by rintro l'; rcases he with rfl | rfl | rfl | rfl | rfl | rfl | rfl <;> simp)⟩
  case attempt h _ => exact .inr ⟨_, plain h (by simp)⟩
  case again h _ _ _ => exact .inr ⟨_, plain h (by simp)⟩
  case giveUp h _ => exact .inr ⟨_, plain h (by simp)⟩
  case failed h _ => exact .inr ⟨_, plain h (by simp)⟩
  case obtained h _ => exact .inr ⟨_, plain h (by simp)⟩
  case wake h _ => exact .inr ⟨_, plain h (by simp)⟩
  case renewed hh h _ => exact .inr ⟨_, timed hh h (by simp)⟩
  case notRenewed hh h he _ => exact .inr ⟨_, timed hh h (by tauto)⟩
  case released h _ => exact .inr ⟨_, plain h (by simp)⟩
  case notReleased h he _ => exact .inr ⟨_, plain h (by rintro l'; rcases he with rfl | rfl <;> simp)⟩
  all_goals exact .inl rfl

/-- the time stamps of call `r` are recent, with locker ID `l`. -/
structure FreshAt (c : Conf) (d : Nat) (s : State) (r : Nat) : Prop where
  row : ∀ l x, s.helper r = .waiting l ∨ s.helper r = .renewing l → s.lock.tab (s.key r) = some x → x.locker = l → Recent c d s r x.updated
  held : ∀ l k u, s.helper r = .waiting l ∨ s.helper r = .renewing l → s.lock.pc l = .held k u → Recent c d s r u
  tick : s.tick r = true → s.due r ≤ s.lock.now + c.interval
  ren : ∀ l, s.helper r = .renewing l → s.tick r = false ∧ ∃ u, s.lock.ren l = some u ∧ s.due r ≤ u + c.interval

theorem fresh_iff {c : Conf} {d : Nat} {s : State} : Fresh c d s ↔ ∀ r, FreshAt c d s r :=
  ⟨fun h r => ⟨h.row r, h.held r, h.tick r, h.ren r⟩, fun h => ⟨fun r => (h r).row, fun r => (h r).held, fun r => (h r).tick, fun r => (h r).ren⟩⟩

/-- a step of the lock which is not a renewal of call `r` keeps it so. -/
theorem freshAt_lock {c : Conf} {d ttl : Nat} {pol : Lock.Policy} {s s' : State} {r : Nat} {e : Lock.Ev} (hb : Base s) (h : FreshAt c d s r) (st : Lock.Step ttl pol s.lock e s'.lock)
    (hh : s'.helper r = s.helper r) (htk : s'.tick r = s.tick r) (hdu : s'.due r = s.due r) (hk : s'.key = s.key)
    (he : ∀ l, s.helper r = .waiting l ∨ s.helper r = .renewing l → e ≠ .renewed l ∧ e ≠ .renewRefused l ∧ e ≠ .renewFailed l) : FreshAt c d s' r := by
  have hrec : ∀ u, Recent c d s r u → Recent c d s' r u := by intro u h; unfold Recent at *; rw [hh, htk, hdu]; exact h
  have hhad : ∀ l, s.helper r = .waiting l ∨ s.helper r = .renewing l → (s.lock.pc l).had = some (s.key r) := by
    rintro l (h | h)
    · exact (hb.waiting r l h).2
    · exact (hb.renewing r l h).2
  refine ⟨?_, ?_, ?_, ?_⟩
  · intro l x h1 h2 h3
    rw [hh] at h1
    rw [hk] at h2
    rcases Lock.row_back st (hhad l h1) h2 h3 with h4 | h4 | h4
    · exact hrec _ (h.row l x h1 h4 h3)
    · exact absurd h4 (he l h1).1
    · exact absurd h4 (he l h1).2.2
  · intro l k u h1 h2
    rw [hh] at h1
    have hq := hhad l h1
    have := Lock.held_back st hq h2
    obtain ⟨u0, hu0⟩ := this
    rw [Lock.held_same st hu0 h2 (he l h1).1]
    exact hrec _ (h.held l k u0 h1 hu0)
  · rw [htk, hdu]
    intro h1
    have := h.tick h1
    have := Lock.now_step st
    omega
  · intro l h1
    rw [hh] at h1
    rw [htk, hdu]
    obtain ⟨h2, u, h3, h4⟩ := h.ren l h1
    exact ⟨h2, u, Lock.ren_keep st h3 (he l (.inr h1)), h4⟩

theorem freshAt_same {c : Conf} {d : Nat} {s s' : State} {r : Nat} (h : FreshAt c d s r) (hl : s'.lock = s.lock)
    (hh : s'.helper r = s.helper r) (htk : s'.tick r = s.tick r) (hdu : s'.due r = s.due r) (hk : s'.key = s.key) : FreshAt c d s' r := by
  obtain ⟨h1, h2, h3, h4⟩ := h
  constructor <;> simp only [Recent, hl, hh, htk, hdu, hk] at * <;> assumption

theorem fresh_step {c : Conf} {d : Nat} {s s' : State} {e : Ev} (hd : d < c.interval) (hb : Base s) (hi : Lock.Inv c.ttl (Lock.withMargin c.ttl d) s.lock) (hf : Fresh c d s) (hp : Prompt c d s)
    (st : Step c (checksWithin d) s e s') : Fresh c d s' := by
  rw [fresh_iff] at hf ⊢
  intro r
  have plain : ∀ {e s1}, Lock.Step c.ttl (checksWithin d) s.lock e s1 → s1 = s'.lock → (∀ l, e ≠ .renewed l ∧ e ≠ .renewRefused l ∧ e ≠ .renewFailed l) → s'.helper r = s.helper r →
      s'.tick r = s.tick r → s'.due r = s.due r → s'.key = s.key → FreshAt c d s' r := by
    intro e s1 h1 h2 h3 h4 h5 h6 h7
    subst h2
    exact freshAt_lock hb (hf r) h1 h4 h5 h6 h7 (fun l _ => h3 l)
  have only : ∀ {r' l l'}, s.helper r' = .renewing l → r ≠ r' → s.helper r = .waiting l' ∨ s.helper r = .renewing l' → l' ≠ l := by
    intro r' l l' h1 h2 h3 h4
    subst h4
    have h5 := (hb.renewing r' l' h1).1
    have h6 : s.drawn l' = some r := by
      rcases h3 with h3 | h3
      · exact (hb.waiting r l' h3).1
      · exact (hb.renewing r l' h3).1
    rw [h5] at h6
    simp at h6
    exact h2 h6.symm
  cases st
  case time d => exact plain (.tick _ d) rfl (by simp) rfl rfl rfl rfl
  case other he hren => rename_i h; exact plain h rfl (by rintro l'; rcases he with rfl | rfl | rfl | rfl | rfl | rfl | rfl <;> simp) rfl rfl rfl rfl
  case cancel => exact freshAt_same (hf r) rfl rfl rfl rfl rfl
  case call => exact freshAt_same (hf r) rfl rfl rfl rfl rfl
  case attempt h _ => exact plain h rfl (by simp) rfl rfl rfl rfl
  case again h _ _ _ => exact plain h rfl (by simp) rfl rfl rfl rfl
  case giveUp h _ => exact plain h rfl (by simp) rfl rfl rfl rfl
  case failed h _ => exact plain h rfl (by simp) rfl rfl rfl rfl
  case obtained h _ => exact plain h rfl (by simp) rfl rfl rfl rfl
  case noTicker => exact freshAt_same (hf r) rfl rfl rfl rfl rfl
  case finishes => exact freshAt_same (hf r) rfl rfl rfl rfl rfl
  case released h _ => exact plain h rfl (by simp) rfl rfl rfl rfl
  case notReleased h he _ => exact plain h rfl (by rintro l'; rcases he with rfl | rfl <;> simp) rfl rfl rfl rfl
  case begins r' l hj hint =>
    by_cases hr : r = r'
    · subst hr
      obtain ⟨g1, ⟨u, g2⟩, g3, g4⟩ := hb.got r l hj
      have g5 := (hp r).1 l hj _ _ g2
      refine ⟨?_, ?_, ?_, ?_⟩ <;> simp only [upd, if_true, Recent]
      · rintro l' x (h1 | h1) h2 h3 <;> simp only [Helper.waiting.injEq, reduceCtorEq] at h1
        subst h1
        have := (hi.owner _ x h2).2
        rw [h3, g2] at this
        simp only [Pc.owns] at this
        refine ⟨by simp [g4], by simp, fun _ _ _ => by omega⟩
      · rintro l' k u' (h1 | h1) h2 <;> simp only [Helper.waiting.injEq, reduceCtorEq] at h1
        subst h1
        rw [g2] at h2
        simp only [Pc.held.injEq] at h2
        refine ⟨by simp [g4], by simp, fun _ _ _ => by omega⟩
      · simp [g4]
      · simp
    · exact freshAt_same (hf r) rfl (by simp [upd, hr]) rfl (by simp [upd, hr]) rfl
  case ring r' l hj hdue =>
    by_cases hr : r = r'
    · subst hr
      obtain ⟨g1, g2, g3⟩ := hb.running r l hj
      have g4 := hp r
      have g5 := hf r
      have hnt : s.helper r ≠ .gone → s.tick r = false := by
        intro hg
        cases htk : s.tick r with
        | false => rfl
        | true => have := g4.2.2 (.inl ⟨htk, hg⟩); omega
      have hnr : ∀ l, s.helper r ≠ .renewing l := by
        intro l hl
        have := g4.2.2 (.inr ⟨l, hl⟩); omega
      refine ⟨?_, ?_, ?_, ?_⟩ <;> simp only [upd, if_true, Recent]
      · rintro l' x (h1 | h1) h2 h3
        · have := (g5.row l' x (.inl h1) h2 h3).2.2 (hnt (by simp [h1])) l' h1
          exact ⟨fun _ => by omega, fun _ hl => absurd hl (hnr _), by simp⟩
        · exact absurd h1 (hnr _)
      · rintro l' k u (h1 | h1) h2
        · have := (g5.held l' k u (.inl h1) h2).2.2 (hnt (by simp [h1])) l' h1
          exact ⟨fun _ => by omega, fun _ hl => absurd hl (hnr _), by simp⟩
        · exact absurd h1 (hnr _)
      · intro _; omega
      · intro l hl; exact absurd hl (hnr _)
    · exact freshAt_same (hf r) rfl rfl (by simp [upd, hr]) (by simp [upd, hr]) rfl
  case wake r' l t hh htk hst hren =>
    by_cases hr : r = r'
    · subst hr
      have g5 := hf r
      have k1 := freshAt_lock (s' := { s with lock := t }) hb g5 hst rfl rfl rfl rfl (by simp)
      have k2 := g5.tick htk
      refine ⟨?_, ?_, ?_, ?_⟩ <;> simp only [upd, if_true, Recent]
      · rintro l' x (h1 | h1) h2 h3 <;> simp only [Helper.renewing.injEq, reduceCtorEq] at h1
        subst h1
        have := (k1.row l x (.inl hh) h2 h3).1 htk
        exact ⟨by simp, fun _ _ => this, by simp⟩
      · rintro l' k u (h1 | h1) h2 <;> simp only [Helper.renewing.injEq, reduceCtorEq] at h1
        subst h1
        have := (k1.held l k u (.inl hh) h2).1 htk
        exact ⟨by simp, fun _ _ => this, by simp⟩
      · simp
      · rintro l' h1
        simp only [Helper.renewing.injEq] at h1
        subst h1
        exact ⟨by simp, _, hren, k2⟩
    · exact plain hst rfl (by simp) (by simp [upd, hr]) (by simp [upd, hr]) rfl rfl
  case renewed r' l t hh hst ho =>
    by_cases hr : r = r'
    · subst hr
      have g5 := hf r
      obtain ⟨g1, u', g2, g3⟩ := g5.ren l hh
      obtain ⟨k1, k2⟩ := Lock.renewed_row hst (hb.renewing r l hh).2 g2
      refine ⟨?_, ?_, ?_, ?_⟩ <;> simp only [upd, if_true, Recent]
      · rintro l' x (h1 | h1) h2 h3 <;> simp only [Helper.waiting.injEq, reduceCtorEq] at h1
        subst h1
        obtain rfl : x = ⟨l, u'⟩ := by rw [k1] at h2; simpa using h2.symm
        exact ⟨by simp [g1], by simp, fun _ _ _ => by simp only; omega⟩
      · rintro l' k u (h1 | h1) h2 <;> simp only [Helper.waiting.injEq, reduceCtorEq] at h1
        subst h1
        obtain rfl := k2 k u h2
        exact ⟨by simp [g1], by simp, fun _ _ _ => by omega⟩
      · simp [g1]
      · simp
    · refine freshAt_lock (e := .renewed l) hb (hf r) hst (by simp [upd, hr]) rfl rfl rfl ?_
      intro l' h1
      have := only hh hr h1
      simp; omega
  case notRenewed r' l t e hh hst he ho =>
    by_cases hr : r = r'
    · subst hr
      have g5 := hf r
      obtain ⟨g1, u', g2, g3⟩ := g5.ren l hh
      refine ⟨?_, ?_, ?_, ?_⟩ <;> simp [upd, g1]
    · refine freshAt_lock (e := e) hb (hf r) hst (by simp [upd, hr]) rfl rfl rfl ?_
      intro l' h1
      have := only hh hr h1
      rcases he with rfl | rfl <;> simp <;> omega

theorem fresh_initial {c : Conf} {d : Nat} {s : State} (h : Initial s) : Fresh c d s := by
  constructor
  · intro r l x h1; rw [(h.2.1 r).2.1] at h1; simp at h1
  · intro r l k u h1; rw [(h.2.1 r).2.1] at h1; simp at h1
  · intro r h1; rw [(h.2.1 r).2.2.1] at h1; simp at h1
  · intro r l h1; rw [(h.2.1 r).2.1] at h1; simp at h1

theorem margin_timely (ttl d : Nat) : Lock.Timely ttl (Lock.withMargin ttl d) := fun u tn tr te hr ht he => by simp only [Lock.withMargin] at hr he; omega

theorem prompt_exec {c : Conf} {d : Nat} {s0 s : State} {es : List Ev} (hd : d < c.interval) (ht : c.interval + 3 * d < c.ttl) (h0 : Initial s0) (hx : PromptExec c d s0 es s) :
    Base s ∧ Fresh c d s ∧ Lock.Reachable c.ttl (Lock.withMargin c.ttl d) s.lock ∧ Prompt c d s := by
  induction hx with
  | nil hp => exact ⟨base_initial h0, fresh_initial h0, ⟨_, _, h0.1, .nil _⟩, hp⟩
  | snoc _ st hp ih =>
    obtain ⟨i1, i2, i3, i4⟩ := ih
    refine ⟨base_step i1 st, fresh_step hd i1 (Lock.inv_reachable (margin_timely _ _) i3) i2 i4 st, ?_, hp⟩
    rcases lock_timed hd ht i1 i2 i4 st with h1 | ⟨e, h1⟩
    · rw [h1]; exact i3
    · obtain ⟨q0, qs, hq, hxq⟩ := i3
      exact ⟨q0, _, hq, .snoc hxq h1⟩

/-- **C94** Callbacks do not overlap: in an execution in which every row read is checked within `d`, and callbacks are called, ticks sent and renewals finished within `d` of their time, where
`d` is less than the renew interval and three times `d` is less than the time to live exceeds the renew interval by, two calls whose callbacks are executed at the same time for the same key are one,
unless a renewal of one of them was not successful, and its context is done. No assumption is made on the order of steps, on failing statements, or on the number of calls and other clients. -/
theorem C94_no_overlap_partial {c : Conf} {d : Nat} {s0 s : State} {es : List Ev} (hd : d < c.interval) (ht : c.interval + 3 * d < c.ttl) (h0 : Initial s0) (hx : PromptExec c d s0 es s)
    {r1 r2 : Nat} (h1 : Executes s r1) (h2 : Executes s r2) (hk : s.key r1 = s.key r2) (n1 : ¬ Told s r1) (n2 : ¬ Told s r2) : r1 = r2 := by
  obtain ⟨hb, hf, hr, hp⟩ := prompt_exec hd ht h0 hx
  have key : ∀ r l, s.job r = .running l → ¬ Told s r → Lock.Within c.ttl s.lock l (s.key r) := by
    intro r l hj hn
    obtain ⟨g1, ⟨u, g2⟩, g3⟩ := hb.running r l hj
    have hg : s.helper r ≠ .gone := fun h => hn (.inl ((hb.told r).1 h))
    have p2 := (hp r).2.1 l hj hg
    refine ⟨u, g2, ?_⟩
    rcases g3 with g3 | g3 | g3
    · have h3 := hf.held r l _ u (.inl g3) g2
      cases htk : s.tick r with
      | false => have := h3.2.2 htk l g3; omega
      | true => have := h3.1 htk; have := (hp r).2.2 (.inl ⟨htk, hg⟩); omega
    · have h3 := (hf.held r l _ u (.inr g3) g2).2.1 l g3
      have := (hp r).2.2 (.inr ⟨l, g3⟩)
      omega
    · exact absurd g3 hg
  obtain ⟨l1, j1⟩ := h1
  obtain ⟨l2, j2⟩ := h2
  have w1 := key r1 l1 j1 n1
  have w2 := key r2 l2 j2 n2
  rw [← hk] at w2
  have := Lock.C25_exclusive_with_margin hr w1 w2
  subst this
  have d1 := (hb.running r1 l1 j1).1
  have d2 := (hb.running r2 l1 j2).1
  rw [d1] at d2
  simpa using d2

/-- **C94** `NewDBLock` takes the configuration as it is or panics, and does not accept a time to live below the renew interval. -/
theorem C94_accepted {c c' : Conf} (h : newDBLock c = some c') : c' = c ∧ c.interval ≤ c.ttl := by
  unfold newDBLock at h
  split at h
  · simp at h
  · simp only [Option.some.injEq] at h; exact ⟨h.symm, by omega⟩

end Ddd.LockRun
