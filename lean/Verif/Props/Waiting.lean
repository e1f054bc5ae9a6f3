import Verif.Spec.Waiting
import Verif.Proofs.Anatomy
/-! # C24: no deadlock -/
set_option linter.unusedVariables false
set_option linter.unusedSimpArgs false
namespace Ddd.Waiting
open Relation

/-- what a process without nested commands still does: lock `a`, then unlock `u`. -/
def Doing (holder : Nat → Option Nat) (i : Nat) (rest : List Act) (a u : List Nat) : Prop :=
  rest = a.map .lock ++ u.map .unlock ∧ a.Pairwise (· < ·) ∧ u.Nodup ∧ (∀ k, k ∈ a → k ∈ u) ∧ (∀ k, holder k = some i ↔ k ∈ u ∧ k ∉ a) ∧
  ∀ k x, holder k = some i → x ∈ a → k < x

theorem hasAdjacentDup_false : ∀ {l : List Nat}, l.Pairwise (· ≤ ·) → hasAdjacentDup l = false → l.Pairwise (· < ·)
  | [], _, _ => .nil
  | [a], _, _ => by simp
  | a :: b :: l, hs, hd => by
    simp only [hasAdjacentDup, Bool.or_eq_false_iff, decide_eq_false_iff_not] at hd
    rw [List.pairwise_cons] at hs
    have ih := hasAdjacentDup_false hs.2 hd.2
    refine List.pairwise_cons.2 ⟨fun x hx => ?_, ih⟩
    have hab : a < b := lt_of_le_of_ne (hs.1 b (by simp)) hd.1
    rcases List.mem_cons.1 hx with rfl | hx
    · exact hab
    · exact lt_trans hab ((List.pairwise_cons.1 ih).1 x hx)

theorem doing_start (cmd : Nat → Cmd) (i : Nat) (keys : List Nat) (h : cmd i = .mk keys []) : ∃ a u, Doing (start cmd).holder i ((start cmd).rest i) a u := by
  simp only [start, h, Cmd.acts, actsList, List.append_nil]
  by_cases hd : hasAdjacentDup (keys.insertionSort (· ≤ ·)) = true
  · simp only [hd, if_true]; exact ⟨[], [], rfl, .nil, .nil, by simp, by simp, by simp⟩
  · have hlt : (keys.insertionSort (· ≤ ·)).Pairwise (· < ·) := hasAdjacentDup_false (List.pairwise_insertionSort _ _) (by simpa using hd)
    simp only [hd, if_false]
    refine ⟨_, _, rfl, hlt, ?_, by simp, by simp, by simp⟩
    exact hlt.imp fun h => Nat.ne_of_lt h

theorem doing_step {s s' : State} {i : Nat} (st : Step s i s') (h : ∀ j, ∃ a u, Doing s.holder j (s.rest j) a u) :
    ∀ j, ∃ a u, Doing s'.holder j (s'.rest j) a u := by
  intro j
  cases st with
  | lock hr hf =>
    rename_i k r
    obtain ⟨a, u, h1, h2, h3, h4, h5, h6⟩ := h j
    by_cases hj : j = i
    · subst hj
      rw [hr] at h1
      cases a with
      | nil => cases u <;> simp at h1
      | cons k' a =>
        simp only [List.map_cons, List.cons_append, List.cons.injEq, Act.lock.injEq] at h1
        obtain ⟨rfl, rfl⟩ := h1
        rw [List.pairwise_cons] at h2
        refine ⟨a, u, by simp, h2.2, h3, fun x hx => h4 x (by simp [hx]), ?_, ?_⟩
        · intro x
          have := h5 x
          by_cases hx : x = k
          · subst hx
            have hna : x ∉ a := fun hm => Nat.lt_irrefl _ (h2.1 x hm)
            simp [h4 x (by simp), hna]
          · simp only [hx, if_false]; rw [this]; simp [hx]
        · intro x y hx hy
          by_cases hxk : x = k
          · subst hxk; exact h2.1 y hy
          · simp only [hxk, if_false] at hx; exact h6 x y hx (by simp [hy])
    · refine ⟨a, u, by simpa [hj] using h1, h2, h3, h4, ?_, ?_⟩
      · intro x
        by_cases hx : x = k
        · subst hx
          simp only [if_true, Option.some.injEq]
          have := h5 x; rw [hf] at this
          constructor
          · intro h; exact absurd h.symm hj
          · intro h; have := this.2 h; cases this
        · simp only [hx, if_false]; exact h5 x
      · intro x y hx hy
        by_cases hxk : x = k
        · simp only [hxk, if_true, Option.some.injEq] at hx; exact absurd hx.symm hj
        · simp only [hxk, if_false] at hx; exact h6 x y hx hy
  | unlock hr =>
    rename_i k r
    obtain ⟨ai, ui, i1, i2, i3, i4, i5, i6⟩ := h i
    rw [hr] at i1
    have hai : ai = [] := by cases ai with | nil => rfl | cons x l => simp at i1
    subst hai
    cases ui with
    | nil => simp at i1
    | cons k' ui =>
      simp only [List.map_nil, List.nil_append, List.map_cons, List.cons.injEq, Act.unlock.injEq] at i1
      obtain ⟨rfl, rfl⟩ := i1
      rw [List.nodup_cons] at i3
      have hik : s.holder k = some i := (i5 k).2 ⟨by simp, by simp⟩
      by_cases hj : j = i
      · subst hj
        refine ⟨[], ui, by simp, .nil, i3.2, by simp, ?_, by simp⟩
        intro x
        by_cases hx : x = k
        · subst hx; simp [i3.1]
        · simp only [hx, if_false]; rw [i5 x]; simp [hx]
      · obtain ⟨a, u, h1, h2, h3, h4, h5, h6⟩ := h j
        refine ⟨a, u, by simpa [hj] using h1, h2, h3, h4, ?_, ?_⟩
        · intro x
          by_cases hx : x = k
          · subst hx
            have := h5 x; rw [hik] at this
            simp only [if_true]
            constructor
            · intro h; cases h
            · intro h; have := this.2 h; simp at this; exact absurd this.symm hj
          · simp only [hx, if_false]; exact h5 x
        · intro x y hx hy
          by_cases hxk : x = k
          · simp only [hxk, if_true] at hx; cases hx
          · simp only [hxk, if_false] at hx; exact h6 x y hx hy
  | giveUp hr hh hn =>
    rename_i k r held
    by_cases hj : j = i
    · subst hj
      refine ⟨[], held.filterMap fun | .unlock k => some k | .lock _ => none, ?_, .nil, ?_, by simp, ?_, by simp⟩
      · simp only [if_true, List.map_nil, List.nil_append]
        clear hn
        have hall : ∀ x ∈ held, ∃ k', x = .unlock k' := fun x hx => by obtain ⟨k', h, _⟩ := (hh x).1 hx; exact ⟨k', h⟩
        clear hh
        induction held with
        | nil => rfl
        | cons x l ih =>
          obtain ⟨k', rfl⟩ := hall x (by simp)
          simp only [List.filterMap_cons, List.map_cons]
          rw [← ih fun x hx => hall x (by simp [hx])]
      · refine hn.filterMap ?_
        intro x y b hx hy
        cases x <;> cases y <;> simp at hx hy
        rw [hx, hy]
      · intro k'
        simp only [List.mem_filterMap, List.not_mem_nil, not_false_eq_true, and_true]
        constructor
        · intro h; exact ⟨.unlock k', (hh _).2 ⟨k', rfl, h⟩, rfl⟩
        · rintro ⟨x, hx, hxk⟩
          obtain ⟨k2, rfl, h⟩ := (hh _).1 hx
          simp at hxk; rw [← hxk]; exact h
    · simpa [hj] using h j

theorem doing_steps {s s' : State} (st : Steps s s') (h : ∀ j, ∃ a u, Doing s.holder j (s.rest j) a u) :
    ∀ j, ∃ a u, Doing s'.holder j (s'.rest j) a u := by
  induction st with
  | refl => exact h
  | snoc _ st ih => exact doing_step st ih

theorem bounded_steps {s s' : State} (st : Steps s s') (h : ∃ B, ∀ k i, s.holder k = some i → k < B) : ∃ B, ∀ k i, s'.holder k = some i → k < B := by
  induction st with
  | refl => exact h
  | snoc _ st ih =>
    obtain ⟨B, hB⟩ := ih
    cases st with
    | lock hr hf =>
      rename_i k r
      refine ⟨max B (k + 1), fun x i hx => ?_⟩
      simp only at hx
      split at hx
      · omega
      · have := hB x i hx; omega
    | unlock hr =>
      refine ⟨B, fun x i hx => ?_⟩
      simp only at hx
      split at hx
      · cases hx
      · exact hB x i hx
    | giveUp => exact ⟨B, hB⟩

/-- a waiting holder waits for a larger key than any it holds. -/
theorem waits_grow {s : State} (h : ∀ j, ∃ a u, Doing s.holder j (s.rest j) a u) {i j k k' : Nat} {r r' : List Act}
    (hi : s.rest i = .lock k :: r) (hk : s.holder k = some j) (hj : s.rest j = .lock k' :: r') : k < k' := by
  obtain ⟨a, u, h1, _, _, _, _, h6⟩ := h j
  rw [hj] at h1
  cases a with
  | nil => cases u <;> simp at h1
  | cons x a =>
    simp only [List.map_cons, List.cons_append, List.cons.injEq, Act.lock.injEq] at h1
    exact h6 k k' hk (by simp [h1.1])

/-- **C24** No circular wait: commands (not nested in each other) never wait for each other in a circle, whatever keys they use, however many there are, in every
interleaving. -/
theorem C24_no_circular_wait {cmd : Nat → Cmd} (hflat : ∀ i, ∃ keys, cmd i = .mk keys []) {s : State} (h : Steps (start cmd) s) (i : Nat) : ¬ Deadlock s i := by
  have hd := doing_steps h fun j => by obtain ⟨keys, hk⟩ := hflat j; exact doing_start cmd j keys hk
  have key : ∀ {i j}, TransGen (WaitsFor s) i j → ∃ k r, s.rest i = .lock k :: r ∧ ∀ k' r', s.rest j = .lock k' :: r' → k < k' := by
    intro i j hij
    induction hij with
    | single hw =>
      obtain ⟨k, r, h1, h2⟩ := hw
      exact ⟨k, r, h1, fun k' r' hj => waits_grow hd h1 h2 hj⟩
    | tail _ hw ih =>
      obtain ⟨k, r, h1, h2⟩ := ih
      obtain ⟨k1, r1, h3, h4⟩ := hw
      exact ⟨k, r, h1, fun k' r' hj => Nat.lt_trans (h2 k1 r1 h3) (waits_grow hd h3 h4 hj)⟩
  intro hc
  obtain ⟨k, r, h1, h2⟩ := key hc
  exact Nat.lt_irrefl _ (h2 k r h1)

/-- **C24** Every command that is not through can proceed itself or waits (transitively) for one that can: some command is always able to proceed. -/
theorem C24_progress {cmd : Nat → Cmd} (hflat : ∀ i, ∃ keys, cmd i = .mk keys []) {s : State} (h : Steps (start cmd) s) {i : Nat} (hi : s.rest i ≠ []) :
    ∃ j, ReflTransGen (WaitsFor s) i j ∧ CanProceed s j := by
  have hd := doing_steps h fun j => by obtain ⟨keys, hk⟩ := hflat j; exact doing_start cmd j keys hk
  obtain ⟨B, hB⟩ := bounded_steps h ⟨0, by simp [start]⟩
  have key : ∀ n k i r, s.rest i = .lock k :: r → B - k ≤ n → ∃ j, ReflTransGen (WaitsFor s) i j ∧ CanProceed s j := by
    intro n
    induction n with
    | zero =>
      intro k i r hr hn
      cases hk : s.holder k with
      | none => exact ⟨i, .refl, .inl ⟨k, r, hr, hk⟩⟩
      | some j => have := hB k j hk; omega
    | succ n ih =>
      intro k i r hr hn
      cases hk : s.holder k with
      | none => exact ⟨i, .refl, .inl ⟨k, r, hr, hk⟩⟩
      | some j =>
        have hw : WaitsFor s i j := ⟨k, r, hr, hk⟩
        cases hj : s.rest j with
        | nil =>
          obtain ⟨a, u, h1, _, _, h4, h5, _⟩ := hd j
          rw [hj] at h1
          have hu := (h5 k).1 hk
          cases u with
          | nil => simp at hu
          | cons => simp at h1
        | cons x r' =>
          cases x with
          | unlock k' => exact ⟨j, .single hw, .inr ⟨k', r', hj⟩⟩
          | lock k' =>
            have := waits_grow hd hr hk hj
            obtain ⟨m, h1, h2⟩ := ih k' j r' hj (by omega)
            exact ⟨m, ReflTransGen.head hw h1, h2⟩
  cases hr : s.rest i with
  | nil => exact absurd hr hi
  | cons x r =>
    cases x with
    | unlock k => exact ⟨i, .refl, .inr ⟨k, r, hr⟩⟩
    | lock k => exact key _ k i r hr (Nat.le_refl _)

/-- a process that can proceed does have a step. -/
theorem canProceed_step {s : State} {j : Nat} (h : CanProceed s j) : ∃ s', Step s j s' := by
  rcases h with ⟨k, r, h1, h2⟩ | ⟨k, r, h1⟩
  · exact ⟨_, .lock h1 h2⟩
  · exact ⟨_, .unlock h1⟩

/-- **C24** does not extend to commands run from inside other commands: command 0 holds key 1 and its `Main` runs a command with key 2; command 1 the other way
round. They wait for each other for ever. -/
theorem C24_nested_deadlock : ∃ s, Steps (start fun i => if i = 0 then .mk [1] [.mk [2] []] else .mk [2] [.mk [1] []]) s ∧ Deadlock s 0 := by
  have a1 := Steps.snoc (.refl (start fun i => if i = 0 then .mk [1] [.mk [2] []] else .mk [2] [.mk [1] []]))
    (.lock (i := 0) (k := 1) (r := [.lock 2, .unlock 2, .unlock 1]) (by decide) rfl)
  have a2 := a1.snoc (.lock (i := 1) (k := 2) (r := [.lock 1, .unlock 1, .unlock 2]) (by decide) rfl)
  refine ⟨_, a2, .tail (.single (b := 1) ⟨2, [.unlock 2, .unlock 1], rfl, rfl⟩) ⟨1, [.unlock 1, .unlock 2], rfl, rfl⟩⟩

/-- not vacuous: commands with keys given in different orders; one holds key 1, the other waits for it. -/
theorem demo_waiting : ∃ s, Steps (start fun i => if i = 0 then .mk [2, 1] [] else .mk [1, 2] []) s ∧ WaitsFor s 1 0 ∧ CanProceed s 0 := by
  have a1 := Steps.snoc (.refl (start fun i => if i = 0 then .mk [2, 1] [] else .mk [1, 2] []))
    (.lock (i := 0) (k := 1) (r := [.lock 2, .unlock 1, .unlock 2]) (by decide) rfl)
  exact ⟨_, a1, ⟨1, [.lock 2, .unlock 1, .unlock 2], by decide, by decide⟩, .inl ⟨2, [.unlock 1, .unlock 2], by decide, rfl⟩⟩

end Ddd.Waiting
