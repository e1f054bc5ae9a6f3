import Verif.Spec.Redis
import Verif.Props.Serial
import Mathlib.Tactic
/-!
# C74–C76: the Redis lock
-/
set_option linter.unusedVariables false
set_option linter.unusedSimpArgs false
namespace Ddd.Redis

/-- what is true in all states: a holder within its lease is the one whose token is stored. -/
structure Inv (ttl : Nat) (s : State) : Prop where
  mine : ∀ l k u, s.pc l = .held k u → u ≤ s.now ∧ (s.now < u + ttl → s.tab k = some ⟨l, u + ttl⟩)

theorem inv_initial {ttl : Nat} {s : State} (h : Initial s) : Inv ttl s := by
  refine ⟨fun l k u hl => ?_⟩
  obtain ⟨k', hk⟩ := h.1 l
  rw [hk] at hl; simp at hl

theorem delIf_cases (t : Tab) (now k l : Nat) :
    (live t now k = some l ∧ delIf t now k l = ((fun x => if x = k then none else t x), true)) ∨ (live t now k ≠ some l ∧ delIf t now k l = (t, false)) := by
  unfold delIf
  split <;> simp_all

theorem live_of {t : Tab} {now k l e : Nat} (h : t k = some ⟨l, e⟩) (hlt : now < e) : live t now k = some l := by simp [live, h, hlt]

set_option maxHeartbeats 2000000 in
theorem inv_step {ttl : Nat} {s s' : State} {e : Ev} (h : Inv ttl s) (hs : Step ttl s e s') : Inv ttl s' := by
  obtain ⟨h1⟩ := h
  cases hs with
  | tick d =>
    exact ⟨fun l k u hl => by have := h1 l k u hl; exact ⟨by simp; omega, fun hlt => this.2 (by simp at hlt; omega)⟩⟩
  | obtain hp ha hok =>
    constructor; grind [State.at, setNX, live]
  | taken hp ha hno =>
    constructor; grind [State.at, setNX, live]
  | giveUp hp => constructor; grind [State.at]
  | obtainErr t hp ht => constructor; grind [State.at, setNX, live]
  | release hp =>
    rename_i l k u
    rcases delIf_cases s.tab s.now k l with ⟨ha, hb⟩ | ⟨ha, hb⟩ <;> rw [hb] <;> constructor
    · intro l' k' u' hl'
      simp only [State.at, if_true] at hl' ⊢
      have hne : l' ≠ l := by rintro rfl; simp at hl'
      simp only [hne, if_false] at hl'
      refine ⟨(h1 _ _ _ hl').1, fun hlt => ?_⟩
      have := (h1 _ _ _ hl').2 hlt
      have hk : k' ≠ k := by
        rintro rfl
        rw [live_of this hlt] at ha
        simp at ha; exact hne ha
      simp [hk, this]
    · intro l' k' u' hl'
      simp only [State.at] at hl' ⊢
      have hne : l' ≠ l := by rintro rfl; simp at hl'
      simp only [hne, if_false] at hl'
      exact h1 _ _ _ hl'
  | releaseErr t hp ht =>
    rename_i l k u
    have hcases : t = s.tab ∨ (live s.tab s.now k = some l ∧ t = fun x => if x = k then none else s.tab x) := by
      rcases ht with ht | ht
      · exact .inl ht
      · rcases delIf_cases s.tab s.now k l with ⟨ha, hb⟩ | ⟨ha, hb⟩
        · right; rw [hb] at ht; exact ⟨ha, ht⟩
        · left; rw [hb] at ht; exact ht
    constructor
    intro l' k' u' hl'
    simp only [State.at] at hl' ⊢
    have hne : l' ≠ l := by rintro rfl; simp at hl'
    simp only [hne, if_false] at hl'
    refine ⟨(h1 _ _ _ hl').1, fun hlt => ?_⟩
    have := (h1 _ _ _ hl').2 hlt
    rcases hcases with rfl | ⟨ha, rfl⟩
    · exact this
    · have hk : k' ≠ k := by
        rintro rfl
        rw [live_of this hlt] at ha
        simp at ha; exact hne ha
      simp [hk, this]

theorem inv_reachable {ttl : Nat} {s : State} (h : Reachable ttl s) : Inv ttl s := by
  obtain ⟨s0, es, h0, hx⟩ := h
  induction hx with
  | nil => exact inv_initial h0
  | snoc _ hs ih => exact inv_step ih hs

/-- **C74** (mutual exclusion) Of any number of clients, two never hold the same key within their leases. -/
theorem C74_mutual_exclusion {ttl : Nat} {s : State} (h : Reachable ttl s) {l l' k : Nat} (h1 : Within ttl s l k) (h2 : Within ttl s l' k) : l = l' := by
  obtain ⟨u, hu, hlt⟩ := h1
  obtain ⟨u', hu', hlt'⟩ := h2
  have i := inv_reachable h
  have e1 := (i.mine l k u hu).2 hlt
  have e2 := (i.mine l' k u' hu').2 hlt'
  rw [e1] at e2
  simp at e2
  exact e2.1

/-- **C74** (granting) A key is granted only when every lease of it has run out or was given back. -/
theorem C74_granted_when_free {ttl : Nat} {s s' : State} (h : Reachable ttl s) {l : Nat} (hs : Step ttl s (.obtained l) s') :
    ∃ k, s'.pc l = .held k s.now ∧ ∀ l', ¬ Within ttl s l' k := by
  have i := inv_reachable h
  generalize he : Ev.obtained l = e at hs
  cases hs with
  | obtain hp ha hok =>
    rename_i l0 k n a
    obtain rfl : l = l0 := by simpa using he
    refine ⟨k, by simp [State.at], ?_⟩
    rintro l' ⟨u, hu, hlt⟩
    have e1 := (i.mine l' k u hu).2 hlt
    simp [setNX, live, e1, hlt] at hok
  | tick => simp at he
  | taken hp ha hno => split at he <;> simp at he
  | giveUp => simp at he
  | obtainErr => simp at he
  | release => split at he <;> simp at he
  | releaseErr => simp at he

/-- **C74** (kept) Whatever others do, a holder keeps its key until its lease runs out or it calls `UnLock`. -/
theorem C74_kept {ttl : Nat} {s s' : State} (h : Reachable ttl s) {e : Ev} (hs : Step ttl s e s') {l k u : Nat} (hh : Holds s l k u) (hh' : Holds s' l k u)
    (hlt : s'.now < u + ttl) : live s'.tab s'.now k = some l := by
  have i := inv_step (inv_reachable h) hs
  have := (i.mine l k u hh').2 hlt
  simp [live, this, hlt]

/-- **C75** (release) Within its lease `UnLock` gives the key back and reports success; after another client has got the key, `UnLock` reports an error and changes nothing; no `UnLock` ever
removes the value of another client. -/
theorem C75_release {ttl : Nat} {s s' : State} (h : Reachable ttl s) {e : Ev} {l k u : Nat} (hs : Step ttl s e s') (hh : Holds s l k u)
    (he : e = .released l ∨ e = .releaseRefused l) :
    (s.now < u + ttl → e = .released l ∧ live s'.tab s'.now k = none) ∧
    (∀ l', l' ≠ l → live s.tab s.now k = some l' → e = .releaseRefused l ∧ s'.tab = s.tab) ∧
    (∀ k' l', l' ≠ l → live s.tab s.now k' = some l' → live s'.tab s'.now k' = some l') := by
  have i := inv_reachable h
  cases hs with
  | release hp =>
    rename_i l0 k0 u0
    have hl : l0 = l := by
      split at he <;> simpa using he
    subst hl
    have : k0 = k ∧ u0 = u := by
      rw [Holds] at hh
      rw [hh] at hp
      simp at hp
      exact ⟨hp.1.symm, hp.2.symm⟩
    obtain ⟨rfl, rfl⟩ := this
    refine ⟨fun hlt => ?_, fun l' hl' hlv => ?_, fun k' l' hl' hlv => ?_⟩
    · have := (i.mine l0 k0 u0 hh).2 hlt
      simp [delIf, live, this, hlt]
    · simp only [delIf, hlv, Option.some.injEq, hl', if_false]
      simp [delIf, hlv, hl']
    · by_cases hd : live s.tab s.now k0 = some l0
      · have hk : k' ≠ k0 := by rintro rfl; rw [hd] at hlv; simp at hlv; exact hl' hlv.symm
        have hb : delIf s.tab s.now k0 l0 = ((fun x => if x = k0 then none else s.tab x), true) := by simp [delIf, hd]
        rw [hb]
        simpa [live, hk, State.at] using hlv
      · simp only [delIf, hd, if_false]; exact hlv
  | tick => simp at he
  | obtain => simp at he
  | taken hp ha hno => split at he <;> simp at he
  | giveUp => simp at he
  | obtainErr => simp at he
  | releaseErr => simp at he

/-- the attempts of `l` that found the key taken so far. -/
def waits (l : Nat) (es : List Ev) : Nat := es.count (.wait l)

set_option maxHeartbeats 1000000 in
theorem waits_inv {ttl : Nat} {s0 s : State} {es : List Ev} (h0 : Initial s0) (hx : Exec ttl s0 es s) (l : Nat) :
    waits l es ≤ maxRetry ∧ ∀ k n a, s.pc l = .trying k n a → n = waits l es ∧ a ≤ s.now + backoff ∧ backoff * n ≤ a := by
  induction hx with
  | nil =>
    refine ⟨by simp [waits], fun k n a hl => ?_⟩
    obtain ⟨k', hk⟩ := h0.1 l
    rw [hk] at hl
    simp at hl
    obtain ⟨_, rfl, rfl⟩ := hl
    simp [waits]
  | snoc _ hs ih =>
    rename_i s1 s2 es e hx
    obtain ⟨ih1, ih2⟩ := ih
    have hw : waits l (es ++ [e]) = waits l es + if e = .wait l then 1 else 0 := by
      simp only [waits, List.count_append, List.count_singleton, beq_iff_eq]
    rw [hw]
    cases hs with
    | tick d =>
      refine ⟨by simpa using ih1, fun k n a hl => ?_⟩
      obtain ⟨a1, a2, a3⟩ := ih2 k n a hl
      simp
      exact ⟨a1, by omega, a3⟩
    | obtain hp ha hok =>
      refine ⟨by simpa using ih1, fun k n a hl => ?_⟩
      simp only [State.at] at hl
      split at hl
      · simp at hl
      · simpa [State.at] using ih2 k n a hl
    | taken hp ha hno =>
      rename_i l0 k0 n0 a0
      by_cases hn : n0 < maxRetry
      · simp only [hn, if_true, Ev.wait.injEq]
        by_cases hl0 : l0 = l
        · subst hl0
          obtain ⟨b1, b2, b3⟩ := ih2 k0 n0 a0 hp
          simp only [if_true]
          refine ⟨by omega, fun k n a hl => ?_⟩
          simp only [State.at, if_true, Pc.trying.injEq] at hl
          obtain ⟨_, rfl, rfl⟩ := hl
          refine ⟨by omega, le_refl _, ?_⟩
          show backoff * (n0 + 1) ≤ s1.now + backoff
          rw [Nat.mul_add]; omega
        · simp only [hl0, if_false]
          refine ⟨by omega, fun k n a hl => ?_⟩
          simp only [State.at, Ne.symm hl0, if_false] at hl
          simpa [State.at] using ih2 k n a hl
      · simp only [hn, if_false]
        refine ⟨by simpa using ih1, fun k n a hl => ?_⟩
        simp only [State.at] at hl
        split at hl
        · simp at hl
        · simpa [State.at] using ih2 k n a hl
    | giveUp hp =>
      refine ⟨by simpa using ih1, fun k n a hl => ?_⟩
      simp only [State.at] at hl
      split at hl
      · simp at hl
      · simpa [State.at] using ih2 k n a hl
    | obtainErr t hp ht =>
      refine ⟨by simpa using ih1, fun k n a hl => ?_⟩
      simp only [State.at] at hl
      split at hl
      · simp at hl
      · simpa [State.at] using ih2 k n a hl
    | release hp =>
      refine ⟨by split <;> simpa using ih1, fun k n a hl => ?_⟩
      simp only [State.at] at hl
      split at hl
      · split at hl <;> simp at hl
      · have := ih2 k n a hl
        split <;> simpa [State.at] using this
    | releaseErr t hp ht =>
      refine ⟨by simpa using ih1, fun k n a hl => ?_⟩
      simp only [State.at] at hl
      split at hl
      · simp at hl
      · simpa [State.at] using ih2 k n a hl

/-- **C76** (bounded retry) `Lock` makes at most 31 attempts. It gives up with `ErrEntityLocked` after exactly 30 retries, not before 3 s have passed, the key being taken at that moment by a value that has not expired. It also gives up
if its context ends while it waits, after one attempt at least. Whenever it waits the key is taken; an attempt that finds the key free obtains it. -/
theorem C76_bounded_retry {ttl : Nat} {s0 s s' : State} {es : List Ev} {e : Ev} (h0 : Initial s0) (hx : Exec ttl s0 es s) (hs : Step ttl s e s') (l : Nat) :
    waits l (es ++ [e]) ≤ 30 ∧
    (e = .refused l → waits l es = 30 ∧ 3000 ≤ s.now ∧ ∃ k n a, s.pc l = .trying k n a ∧ live s.tab s.now k ≠ none) ∧
    (e = .gaveUp l → 1 ≤ waits l es) ∧
    (e = .wait l → ∃ k n a, s.pc l = .trying k n a ∧ live s.tab s.now k ≠ none) ∧
    (e = .obtained l → ∃ k n a, s.pc l = .trying k n a ∧ live s.tab s.now k = none) := by
  have hi := waits_inv h0 hx l
  have hsn : ∀ k, (setNX s.tab s.now ttl k l).2 = false → live s.tab s.now k ≠ none := by
    intro k h h'
    simp [setNX, h'] at h
  have hsy : ∀ k, (setNX s.tab s.now ttl k l).2 = true → live s.tab s.now k = none := by
    intro k h
    by_contra h'
    obtain ⟨v, hv⟩ := Option.ne_none_iff_exists'.1 h'
    simp [setNX, hv] at h
  refine ⟨(waits_inv h0 (hx.snoc hs) l).1, ?_, ?_, ?_, ?_⟩
  · rintro rfl
    generalize he : Ev.refused l = e at hs
    cases hs with
    | taken hp ha hno =>
      rename_i l0 k n a
      split at he
      · simp at he
      · next hn =>
        obtain rfl : l = l0 := by simpa using he
        obtain ⟨b1, b2, b3⟩ := hi.2 k n a hp
        simp only [maxRetry, backoff] at *
        exact ⟨by omega, by omega, k, n, a, hp, hsn k hno⟩
    | release => split at he <;> simp at he
    | _ => simp at he
  · rintro rfl
    generalize he : Ev.gaveUp l = e at hs
    cases hs with
    | giveUp hp =>
      rename_i l0 k n a
      obtain rfl : l = l0 := by simpa using he
      obtain ⟨b1, b2, b3⟩ := hi.2 k _ a hp
      omega
    | taken hp ha hno => split at he <;> simp at he
    | release => split at he <;> simp at he
    | _ => simp at he
  · rintro rfl
    generalize he : Ev.wait l = e at hs
    cases hs with
    | taken hp ha hno =>
      rename_i l0 k n a
      split at he
      · obtain rfl : l = l0 := by simpa using he
        exact ⟨k, n, a, hp, hsn k hno⟩
      · simp at he
    | release => split at he <;> simp at he
    | _ => simp at he
  · rintro rfl
    generalize he : Ev.obtained l = e at hs
    cases hs with
    | obtain hp ha hok =>
      rename_i l0 k n a
      obtain rfl : l = l0 := by simpa using he
      exact ⟨k, n, a, hp, hsy k hok⟩
    | taken hp ha hno => split at he <;> simp at he
    | release => split at he <;> simp at he
    | _ => simp at he

/-- **C76** (no attempt is lost) A free key is obtained by the next attempt that is made. -/
theorem C76_free_is_obtained {ttl : Nat} {s : State} {l k n a : Nat} (hp : s.pc l = .trying k n a) (ha : a ≤ s.now) (hf : live s.tab s.now k = none) :
    ∃ s', Step ttl s (.obtained l) s' ∧ Holds s' l k s.now ∧ live s'.tab s'.now k = if 0 < ttl then some l else none := by
  refine ⟨_, .obtain hp ha (by simp [setNX, hf]), by simp [Holds, State.at], ?_⟩
  have hb : setNX s.tab s.now ttl k l = ((fun x => if x = k then some ⟨l, s.now + ttl⟩ else s.tab x), true) := by simp [setNX, hf]
  rw [hb]
  simp [live, State.at]

/-! ## The engine's locker -/

open Spec

/-- holding in the sense of the engine (C69) is holding in the sense of the lock. -/
theorem holds_of_world {ttl : Nat} {s0 s : State} {es : List Ev} {owner key : Nat → Nat} (h0 : Initial s0) (hkey : ∀ l, ∃ n a, s0.pc l = .trying (key l) n a)
    (hx : Exec ttl s0 es s) :
    (∀ l, (∃ n a, s.pc l = .trying (key l) n a) ∨ (∃ u, s.pc l = .held (key l) u) ∨ s.pc l = .locked (key l) ∨ s.pc l = .failed (key l) ∨ s.pc l = .released (key l) ∨
      s.pc l = .lost (key l)) ∧
    (∀ i k, HoldsKey (es.flatMap (calls owner key)) i k → ∃ l u, owner l = i ∧ key l = k ∧ s.pc l = .held k u) := by
  induction hx with
  | nil => exact ⟨fun l => .inl (hkey l), fun i k ⟨a, b, h, _⟩ => by simp at h⟩
  | snoc hx hs ih =>
    rename_i s1 s2 es e
    obtain ⟨ih1, ih2⟩ := ih
    constructor
    · intro l
      have := ih1 l
      cases hs with
      | tick d => exact this
      | obtain hp ha hok => rename_i l0 k n a; by_cases hl : l = l0 <;> grind [State.at]
      | taken hp ha hno => rename_i l0 k n a; by_cases hl : l = l0 <;> grind [State.at]
      | giveUp hp => rename_i l0 k n a; by_cases hl : l = l0 <;> grind [State.at]
      | obtainErr t hp ht => rename_i l0 k n a; by_cases hl : l = l0 <;> grind [State.at]
      | release hp => rename_i l0 k u; by_cases hl : l = l0 <;> grind [State.at]
      | releaseErr t hp ht => rename_i l0 k u; by_cases hl : l = l0 <;> grind [State.at]
    · intro i k hh
      rw [List.flatMap_append, List.flatMap_cons, List.flatMap_nil, List.append_nil] at hh
      -- what the last event adds
      have hquiet : calls owner key e = [] → (∀ l k u, s1.pc l = .held k u → s2.pc l = .held k u) → ∃ l u, owner l = i ∧ key l = k ∧ s2.pc l = .held k u := by
        intro hc hp
        rw [hc, List.append_nil] at hh
        obtain ⟨l, u, a, b, c⟩ := ih2 i k hh
        exact ⟨l, u, a, b, hp l k u c⟩
      have hlock : ∀ l st, calls owner key e = [(owner l, .lock (key l) st)] → (st = .ok → ∃ u, s2.pc l = .held (key l) u) →
          (∀ l k u, s1.pc l = .held k u → s2.pc l = .held k u) → ∃ l u, owner l = i ∧ key l = k ∧ s2.pc l = .held k u := by
        intro l st hc hok hp
        rw [hc] at hh
        rcases Serial.holds_snoc hh with h1 | h1
        · simp only [Prod.mk.injEq, Call.lock.injEq] at h1
          obtain ⟨rfl, rfl, rfl⟩ := h1
          obtain ⟨u, hu⟩ := hok rfl
          exact ⟨l, u, rfl, rfl, hu⟩
        · obtain ⟨l, u, a, b, c⟩ := ih2 i k h1
          exact ⟨l, u, a, b, hp l k u c⟩
      have hun : ∀ l st, calls owner key e = [(owner l, .unlock (key l) st)] →
          (∀ l' k u, l' ≠ l → s1.pc l' = .held k u → s2.pc l' = .held k u) → ∃ l u, owner l = i ∧ key l = k ∧ s2.pc l = .held k u := by
        intro l st hc hp
        rw [hc] at hh
        have hne : ¬ (owner l = i ∧ key l = k) := by
          rintro ⟨rfl, rfl⟩
          obtain ⟨a, b, hab, hb⟩ := hh
          rcases List.eq_nil_or_concat b with rfl | ⟨b', y, rfl⟩
          · have := (List.append_inj' hab rfl).2; simp at this
          · have h1 : List.flatMap (calls owner key) es ++ [(owner l, Call.unlock (key l) st)] = (a ++ (owner l, Call.lock (key l) .ok) :: b') ++ [y] := by simpa using hab
            have := (List.append_inj' h1 rfl).2
            simp only [List.cons.injEq, and_true] at this
            exact hb st (by rw [← this]; simp)
        rcases Serial.holds_snoc hh with h1 | h1
        · simp at h1
        · obtain ⟨l', u, a, b, c⟩ := ih2 i k h1
          exact ⟨l', u, a, b, hp l' k u (by rintro rfl; exact hne ⟨a, b⟩) c⟩
      cases hs with
      | tick d => exact hquiet rfl (fun _ _ _ h => h)
      | obtain hp ha hok =>
        rename_i l0 k0 n a
        have hk0 : k0 = key l0 := by have := ih1 l0; grind
        refine hlock l0 .ok rfl (fun _ => ⟨s1.now, by simp [State.at, hk0]⟩) ?_
        intro l k u hl
        grind [State.at]
      | taken hp ha hno =>
        rename_i l0 k0 n a
        have hpres : ∀ l k u, s1.pc l = .held k u → (s1.at l0 (if n < maxRetry then .trying k0 (n + 1) (s1.now + backoff) else .locked k0)).pc l = .held k u := by
          intro l k u hl; grind [State.at]
        by_cases hn : n < maxRetry
        · exact hquiet (by simp [hn, calls]) hpres
        · exact hlock l0 .err (by simp [hn, calls]) (by simp) hpres
      | giveUp hp =>
        rename_i l0 k0 n a
        exact hlock l0 .err rfl (by simp) (by intro l k u hl; grind [State.at])
      | obtainErr t hp ht =>
        rename_i l0 k0 n a
        exact hlock l0 .err rfl (by simp) (by intro l k u hl; grind [State.at])
      | release hp =>
        rename_i l0 k0 u
        by_cases hd : (delIf s1.tab s1.now k0 l0).2 = true
        · exact hun l0 .ok (by simp [hd, calls]) (by intro l k u hne hl; simp [State.at, hne, hl])
        · exact hun l0 .err (by simp [hd, calls]) (by intro l k u hne hl; simp [State.at, hne, hl])
      | releaseErr t hp ht =>
        rename_i l0 k0 u
        exact hun l0 .err rfl (by intro l k u hne hl; simp [State.at, hne, hl])

theorem Timed.exec {ttl : Nat} {s0 s : State} {es : List Ev} (h : Timed ttl s0 es s) : Exec ttl s0 es s ∧ InTime ttl s := by
  induction h with
  | nil h => exact ⟨.nil _, h⟩
  | snoc _ hs h ih => exact ⟨ih.1.snoc hs, h⟩

theorem exec_append {ttl : Nat} {s0 s : State} {a b : List Ev} (h : Timed ttl s0 (a ++ b) s) : ∃ s1, Timed ttl s0 a s1 ∧ (b = [] → s1 = s) ∧ (∀ e b', b = e :: b' → ∃ s2, Step ttl s1 e s2) := by
  induction b using List.reverseRecOn generalizing s with
  | nil => exact ⟨s, by simpa using h, fun _ => rfl, by simp⟩
  | append_singleton b e ih =>
    rw [← List.append_assoc] at h
    generalize hg : a ++ b ++ [e] = g at h
    cases h with
    | nil => simp at hg
    | snoc h1 h2 _ =>
      have := List.append_inj' hg rfl
      obtain ⟨rfl, he⟩ := this
      simp at he
      subst he
      obtain ⟨s1, x1, x2, x3⟩ := ih h1
      refine ⟨s1, x1, by simp, ?_⟩
      intro e' b' hb
      cases b with
      | nil =>
        simp at hb
        obtain ⟨rfl, _⟩ := hb
        have := x2 rfl
        subst this
        exact ⟨_, h2⟩
      | cons y ys =>
        simp at hb
        obtain ⟨rfl, _⟩ := hb
        exact x3 y ys rfl

/-- **C74** (for the engine) If no command still holds a lock when its lease runs out, the Redis lock is exclusive in the sense of C69: commands with a common key run one after the other. -/
theorem C74_exclusive_for_commands {ttl : Nat} {s0 s : State} {es : List Ev} {owner key : Nat → Nat} (h0 : Initial s0) (hkey : ∀ l, ∃ n a, s0.pc l = .trying (key l) n a)
    (hx : Timed ttl s0 es s) :
    Exclusive (es.flatMap (calls owner key)) := by
  intro a b i j k hg hh
  -- the event of the grant
  have hsplit : ∀ (es : List Ev) (a b : World), es.flatMap (calls owner key) = a ++ (i, Call.lock k .ok) :: b →
      ∃ es1 es2 l, es = es1 ++ .obtained l :: es2 ∧ es1.flatMap (calls owner key) = a ∧ owner l = i ∧ key l = k := by
    intro es
    induction es with
    | nil => intro a b h; simp at h
    | cons e es ih =>
      intro a b h
      rw [List.flatMap_cons] at h
      have one : calls owner key e = [] ∨ ∃ y, calls owner key e = [y] := by cases e <;> simp [calls]
      rcases one with h1 | ⟨y, h1⟩
      · rw [h1, List.nil_append] at h
        obtain ⟨es1, es2, l, rfl, h2, h3, h4⟩ := ih a b h
        exact ⟨e :: es1, es2, l, rfl, by simp [h1, h2], h3, h4⟩
      · rw [h1] at h
        cases a with
        | nil =>
          simp at h
          obtain ⟨rfl, _⟩ := h
          cases e <;> simp [calls] at h1
          rename_i l
          exact ⟨[], es, l, rfl, rfl, h1.1, h1.2⟩
        | cons y' a =>
          simp at h
          obtain ⟨rfl, h⟩ := h
          obtain ⟨es1, es2, l, rfl, h2, h3, h4⟩ := ih a b h
          exact ⟨e :: es1, es2, l, rfl, by simp [h1, h2], h3, h4⟩
  obtain ⟨es1, es2, l, rfl, rfl, rfl, rfl⟩ := hsplit es a b hg
  obtain ⟨s1, x1, _, x3⟩ := exec_append hx
  obtain ⟨s2, hs⟩ := x3 _ _ rfl
  have xt := x1
  replace x1 := (Timed.exec x1).1
  obtain ⟨hst, hhold⟩ := holds_of_world h0 hkey x1
  obtain ⟨l', u, rfl, hk', hu⟩ := hhold j (key l) hh
  exfalso
  obtain ⟨k', h1, h2⟩ := C74_granted_when_free ⟨s0, es1, h0, x1⟩ hs
  have hk1 : k' = key l := by
    have := (holds_of_world (owner := owner) h0 hkey (x1.snoc hs)).1 l
    rw [h1] at this
    simpa using this
  subst hk1
  exact h2 l' ⟨u, hu, (Timed.exec xt).2 l' (key l) u hu⟩

/-! ## Concrete executions -/

def start : State := { now := 0, tab := fun _ => none, pc := fun _ => .trying 7 0 0 }

/-- client 0 gets key 7, client 1 finds it taken and waits; 0 gives it back, 1 gets it. -/
theorem demo_exec : ∃ s, Exec 1000 start [.obtained 0, .wait 1, .tick, .released 0, .obtained 1] s ∧ Within 1000 s 1 7 := by
  have a1 := Exec.snoc (.nil start) (.obtain (ttl := 1000) (l := 0) (k := 7) (n := 0) (a := 0) rfl (by decide) rfl)
  have a2 := a1.snoc (.taken (l := 1) (k := 7) (n := 0) (a := 0) rfl (by decide) rfl)
  have a3 := a2.snoc (.tick _ 100)
  have a4 := a3.snoc (.release (l := 0) (k := 7) (u := 0) rfl)
  have a5 := a4.snoc (.obtain (l := 1) (k := 7) (n := 1) (a := 100) rfl (by decide) rfl)
  exact ⟨_, a5, 100, rfl, by decide⟩

example : Initial start := ⟨fun l => ⟨7, rfl⟩, fun _ => rfl⟩

/-- **C74** does not hold beyond the lease: there is no renewal. A client that works longer than the ttl is still working when the next one gets the key; its `UnLock` then reports an error. -/
theorem C74_beyond_lease : ∃ s, Exec 1000 start [.obtained 0, .tick, .obtained 1, .releaseRefused 0] s ∧ (∃ s', Exec 1000 start [.obtained 0, .tick, .obtained 1] s' ∧ Holds s' 0 7 0 ∧ Holds s' 1 7 1000) ∧
    live s.tab s.now 7 = some 1 := by
  have a1 := Exec.snoc (.nil start) (.obtain (ttl := 1000) (l := 0) (k := 7) (n := 0) (a := 0) rfl (by decide) rfl)
  have a2 := a1.snoc (.tick _ 1000)
  have a3 := a2.snoc (.obtain (l := 1) (k := 7) (n := 0) (a := 0) rfl (by decide) rfl)
  have a4 := a3.snoc (.release (l := 0) (k := 7) (u := 0) rfl)
  exact ⟨_, a4, ⟨_, a3, rfl, rfl⟩, by decide⟩

end Ddd.Redis
