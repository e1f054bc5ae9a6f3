import Verif.Spec.Hooks
/-! # C20: PostSave hooks of several commands on one engine -/
set_option linter.unusedVariables false
set_option linter.unusedSimpArgs false
namespace Ddd.Hooks

/-- a slice holds the elements `l`. -/
def Mem.has (m : Mem) (s : Slice) (l : List Nat) : Prop := s.len = l.length ∧ ∀ i x, l[i]? = some x → m.cell s.arr i = x

theorem append_has {grow : Nat → Nat} {m : Mem} {s : Slice} {l : List Nat} (h : Nat) (hm : m.has s l) :
    (append grow m s h).1.has (append grow m s h).2 (l ++ [h]) := by
  obtain ⟨h1, h2⟩ := hm
  unfold append
  split
  · refine ⟨by simp [h1], fun i x hx => ?_⟩
    by_cases hi : i = s.len
    · subst hi; rw [h1] at hx ⊢; simp at hx; simp [hx]
    · have hlt : i < l.length := by
        have := (List.getElem?_eq_some_iff.1 hx).1
        simp at this; omega
      rw [List.getElem?_append_left hlt] at hx
      simp [hi, h2 i x hx]
  · refine ⟨by simp [h1], fun i x hx => ?_⟩
    by_cases hi : i < s.len
    · rw [List.getElem?_append_left (h1 ▸ hi)] at hx; simp [hi, h2 i x hx]
    · have hlt : i < (l ++ [h]).length := (List.getElem?_eq_some_iff.1 hx).1
      have : i = s.len := by simp at hlt; omega
      subst this
      rw [h1] at hx; simp at hx; simp [hx]

theorem engineSlice_spec (grow : Nat → Nat) (hs : List Nat) : (engineSlice grow hs).1.has (engineSlice grow hs).2 hs ∧
    (engineSlice grow hs).2.arr < (engineSlice grow hs).1.next := by
  unfold engineSlice
  rw [← List.reverse_reverse hs]
  induction hs.reverse with
  | nil => exact ⟨⟨rfl, by simp⟩, by simp⟩
  | cons h t ih =>
    rw [List.reverse_cons, List.foldl_append]
    refine ⟨append_has h ih.1, ?_⟩
    simp only [List.foldl_cons, List.foldl_nil]
    unfold append
    split
    · exact ih.2
    · simp

/-- what a command's own slice looks like, in memory `m`; `e` is the engine's slice. `full`: the engine's slice has no spare capacity. -/
def Pc.good (full : Prop) (e : Slice) (hs own : List Nat) (m : Mem) : Pc → Prop
  | .idle => True
  | .options s todo => ∃ done, own = done ++ todo ∧ (own = [] ∨ full → m.has s (hs ++ done)) ∧ s.arr < m.next ∧
      (done = [] → s = e) ∧ (full → done ≠ [] → s.arr ≠ e.arr)
  | .hooks s called => (own = [] ∨ full → m.has s (hs ++ own)) ∧ s.arr < m.next ∧ (own = [] → s = e) ∧ (full → own ≠ [] → s.arr ≠ e.arr) ∧
      (own = [] ∨ full → called = (hs ++ own).take called.length ∧ called.length ≤ s.len)

/-- the array a command's slice is in. -/
def Pc.arr : Pc → Option Nat
  | .idle => none
  | .options s _ => some s.arr
  | .hooks s _ => some s.arr

structure Inv (full : Prop) (e : Slice) (hs : List Nat) (own : Nat → List Nat) (s : State) : Prop where
  eng : s.mem.has e hs
  engArr : e.arr < s.mem.next
  good : ∀ i, (s.pc i).good full e hs (own i) s.mem
  apart : full → ∀ i j a, i ≠ j → (s.pc i).arr = some a → (s.pc j).arr = some a → a = e.arr

theorem good_mono {full : Prop} {e : Slice} {hs own : List Nat} {m m' : Mem} {p : Pc} (h : p.good full e hs own m)
    (hn : m.next ≤ m'.next) (he : m'.has e hs) (hm : full → ∀ a, p.arr = some a → a ≠ e.arr → ∀ i, m'.cell a i = m.cell a i) (hf : full → m'.cell e.arr = m.cell e.arr) :
    p.good full e hs own m' := by
  cases p with
  | idle => trivial
  | options s todo =>
    obtain ⟨done, h1, h2, h3, h4, h5⟩ := h
    refine ⟨done, h1, ?_, by omega, h4, h5⟩
    intro hc
    obtain ⟨k1, k2⟩ := h2 hc
    by_cases hd : done = []
    · rw [hd, List.append_nil, h4 hd]; exact he
    · have hfull : full := by
        rcases hc with hc | hc
        · rw [hc] at h1; have := List.append_eq_nil_iff.1 h1.symm; exact absurd this.1 hd
        · exact hc
      exact ⟨k1, fun i x hx => by rw [hm hfull _ rfl (h5 hfull hd)]; exact k2 i x hx⟩
  | hooks s called =>
    obtain ⟨h2, h3, h4, h5, h6⟩ := h
    refine ⟨?_, by omega, h4, h5, h6⟩
    intro hc
    obtain ⟨k1, k2⟩ := h2 hc
    by_cases hd : own = []
    · rw [hd, List.append_nil, h4 hd]; exact he
    · have hfull : full := hc.resolve_left hd
      exact ⟨k1, fun i x hx => by rw [hm hfull _ rfl (h5 hfull hd)]; exact k2 i x hx⟩

theorem append_next {grow : Nat → Nat} {m : Mem} {s : Slice} {h : Nat} : m.next ≤ (append grow m s h).1.next := by
  unfold append; split <;> simp

theorem append_arr {grow : Nat → Nat} {m : Mem} {s : Slice} {h : Nat} :
    (s.len < s.cap ∧ (append grow m s h).2.arr = s.arr ∧ (append grow m s h).1.next = m.next) ∨
    (¬ s.len < s.cap ∧ (append grow m s h).2.arr = m.next ∧ (append grow m s h).1.next = m.next + 1) := by
  unfold append; split
  · exact .inl ⟨by assumption, rfl, rfl⟩
  · exact .inr ⟨by assumption, rfl, rfl⟩

theorem append_other {grow : Nat → Nat} {m : Mem} {s : Slice} {h a : Nat} (h1 : a ≠ s.arr) (h2 : a < m.next) (i : Nat) :
    (append grow m s h).1.cell a i = m.cell a i := by
  have h3 : a ≠ m.next := by omega
  unfold append; split <;> simp [h1, h3]

theorem append_low {grow : Nat → Nat} {m : Mem} {s : Slice} {h a : Nat} (h2 : a < m.next) {i : Nat} (hi : i < s.len) :
    (append grow m s h).1.cell a i = m.cell a i := by
  have h3 : a ≠ m.next := by omega
  have h4 : i ≠ s.len := by omega
  unfold append; split <;> simp [h3, h4]

theorem append_full {grow : Nat → Nat} {m : Mem} {s : Slice} {h a : Nat} (hc : ¬ s.len < s.cap) (h2 : a < m.next) (i : Nat) :
    (append grow m s h).1.cell a i = m.cell a i := by
  have h3 : a ≠ m.next := by omega
  unfold append; simp [hc, h3]

theorem inv_step {grow : Nat → Nat} {e : Slice} {hs : List Nat} {own : Nat → List Nat} {s s' : State}
    (h : Inv (e.len = e.cap) e hs own s) (hgood : ∀ i sl todo, s.pc i = .options sl todo → e.len ≤ sl.len)
    (st : Step grow e own s s') : Inv (e.len = e.cap) e hs own s' := by
  obtain ⟨h1, h2, h3, h4⟩ := h
  cases st with
  | start hp =>
    rename_i i
    refine ⟨h1, h2, ?_, ?_⟩
    · intro j
      simp only [State.at]
      by_cases hj : j = i
      · subst hj; simp only [if_true]
        exact ⟨[], by simp, fun _ => by simpa using h1, h2, fun _ => rfl, by simp⟩
      · simp only [hj, if_false]; exact h3 j
    · intro hf a b x hab ha hb
      simp only [State.at] at ha hb
      by_cases hai : a = i
      · subst hai; simp only [if_true, Pc.arr, Option.some.injEq] at ha; exact ha.symm
      · by_cases hbi : b = i
        · subst hbi; simp only [if_true, Pc.arr, Option.some.injEq] at hb; exact hb.symm
        · simp only [hai, hbi, if_false] at ha hb; exact h4 hf a b x hab ha hb
  | run hp =>
    rename_i i sl
    have hi := h3 i
    rw [hp] at hi
    obtain ⟨done, k1, k2, k3, k4, k5⟩ := hi
    rw [List.append_nil] at k1
    subst k1
    refine ⟨h1, h2, ?_, ?_⟩
    · intro j
      simp only [State.at]
      by_cases hj : j = i
      · subst hj; simp only [if_true]
        exact ⟨k2, k3, k4, k5, fun _ => by simp⟩
      · simp only [hj, if_false]; exact h3 j
    · intro hf a b x hab ha hb
      refine h4 hf a b x hab ?_ ?_
      · by_cases hai : a = i
        · subst hai; rw [hp]; simpa [State.at, Pc.arr] using ha
        · simpa [State.at, hai] using ha
      · by_cases hbi : b = i
        · subst hbi; rw [hp]; simpa [State.at, Pc.arr] using hb
        · simpa [State.at, hbi] using hb
  | call hp hlt =>
    rename_i i sl called
    have hi := h3 i
    rw [hp] at hi
    obtain ⟨k2, k3, k4, k5, k6⟩ := hi
    refine ⟨h1, h2, ?_, ?_⟩
    · intro j
      simp only [State.at]
      by_cases hj : j = i
      · subst hj; simp only [if_true]
        refine ⟨k2, k3, k4, k5, fun hc => ?_⟩
        obtain ⟨k7, k8⟩ := k2 hc
        obtain ⟨k9, k10⟩ := k6 hc
        have hx : called.length < (hs ++ own j).length := by omega
        have hxx := List.getElem?_eq_getElem hx
        refine ⟨?_, by simp; omega⟩
        rw [k8 _ _ hxx, List.length_append, List.length_singleton, List.take_add_one, hxx, Option.toList_some, ← k9]
      · simp only [hj, if_false]; exact h3 j
    · intro hf a b x hab ha hb
      refine h4 hf a b x hab ?_ ?_
      · by_cases hai : a = i
        · subst hai; rw [hp]; simpa [State.at, Pc.arr] using ha
        · simpa [State.at, hai] using ha
      · by_cases hbi : b = i
        · subst hbi; rw [hp]; simpa [State.at, Pc.arr] using hb
        · simpa [State.at, hbi] using hb
  | add hp =>
    rename_i i sl h todo
    have hi := h3 i
    rw [hp] at hi
    obtain ⟨done, k1, k2, k3, k4, k5⟩ := hi
    have hlen := hgood i sl _ hp
    have heng : (append grow s.mem sl h).1.has e hs :=
      ⟨h1.1, fun j x hj => by
        have : j < e.len := by rw [h1.1]; exact (List.getElem?_eq_some_iff.1 hj).1
        rw [append_low h2 (by omega)]; exact h1.2 j x hj⟩
    -- with a full engine slice, the written array is not the engine's
    have hwr : e.len = e.cap → ∀ a, a < s.mem.next → (a = sl.arr → a = e.arr) → ∀ j, (append grow s.mem sl h).1.cell a j = s.mem.cell a j := by
      intro hf a ha hae j
      by_cases hd : done = []
      · have : sl = e := k4 hd
        subst this
        exact append_full (by omega) ha j
      · have := k5 hf hd
        exact append_other (fun hh => this (hh ▸ hae hh)) ha j
    refine ⟨heng, Nat.lt_of_lt_of_le h2 append_next, ?_, ?_⟩
    · intro j
      simp only [State.at]
      by_cases hj : j = i
      · subst hj; simp only [if_true]
        refine ⟨done ++ [h], by simp [k1], ?_, ?_, by simp, ?_⟩
        · intro hc
          rw [← List.append_assoc]
          exact append_has h (k2 hc)
        · rcases append_arr (grow := grow) (m := s.mem) (s := sl) (h := h) with ⟨_, a1, a2⟩ | ⟨_, a1, a2⟩ <;> omega
        · intro hf _
          rcases append_arr (grow := grow) (m := s.mem) (s := sl) (h := h) with ⟨a0, a1, a2⟩ | ⟨_, a1, a2⟩
          · rw [a1]
            by_cases hd : done = []
            · have : sl = e := k4 hd
              subst this; omega
            · exact k5 hf hd
          · rw [a1]; omega
      · simp only [hj, if_false]
        refine good_mono (h3 j) append_next heng ?_ ?_
        · intro hf a ha hae x
          have halt : a < s.mem.next := by
            have := h3 j
            cases hpj : s.pc j with
            | idle => rw [hpj] at ha; cases ha
            | options s' t' => rw [hpj] at ha this; obtain ⟨_, _, _, q, _⟩ := this; simp only [Pc.arr, Option.some.injEq] at ha; omega
            | hooks s' c' => rw [hpj] at ha this; obtain ⟨_, q, _⟩ := this; simp only [Pc.arr, Option.some.injEq] at ha; omega
          exact hwr hf a halt (fun hh => h4 hf j i a hj ha (by rw [hp, hh]; rfl)) x
        · intro hf
          funext x
          exact hwr hf e.arr h2 (fun _ => rfl) x
    · intro hf a b x hab ha hb
      have halt : ∀ j y, (s.pc j).arr = some y → y < s.mem.next := by
        intro j y hy
        have := h3 j
        cases hpj : s.pc j with
        | idle => rw [hpj] at hy; cases hy
        | options s' t' => rw [hpj] at hy this; obtain ⟨_, _, _, q, _⟩ := this; simp only [Pc.arr, Option.some.injEq] at hy; omega
        | hooks s' c' => rw [hpj] at hy this; obtain ⟨_, q, _⟩ := this; simp only [Pc.arr, Option.some.injEq] at hy; omega
      have hnew : ∀ j y, j ≠ i → (s.pc j).arr = some y → (append grow s.mem sl h).2.arr = y → y = e.arr := by
        intro j y hj hy hh
        rcases append_arr (grow := grow) (m := s.mem) (s := sl) (h := h) with ⟨a0, a1, a2⟩ | ⟨_, a1, a2⟩
        · exact h4 hf j i y hj hy (by rw [hp, Pc.arr, ← hh, a1])
        · have := halt j y hy; omega
      simp only [State.at] at ha hb
      by_cases hai : a = i
      · subst hai
        simp only [if_true, Pc.arr, Option.some.injEq] at ha
        simp only [Ne.symm hab, if_false] at hb
        exact hnew b x (Ne.symm hab) hb ha
      · by_cases hbi : b = i
        · subst hbi
          simp only [if_true, Pc.arr, Option.some.injEq] at hb
          simp only [hab, if_false] at ha
          exact hnew a x hab ha hb
        · simp only [hai, hbi, if_false] at ha hb; exact h4 hf a b x hab ha hb

theorem longer {grow : Nat → Nat} {e : Slice} {own : Nat → List Nat} {s s' : State} (hx : Steps grow e own s s') (h0 : ∀ i, s.pc i = .idle) :
    ∀ i sl todo, s'.pc i = .options sl todo → e.len ≤ sl.len := by
  induction hx with
  | refl => intro i sl todo h; rw [h0] at h; cases h
  | snoc _ st ih =>
    intro i sl todo h
    cases st with
    | start hp =>
      simp only [State.at] at h
      split at h
      · cases h; exact Nat.le_refl _
      · exact ih i sl todo h
    | run hp =>
      simp only [State.at] at h
      split at h
      · cases h
      · exact ih i sl todo h
    | call hp _ =>
      simp only [State.at] at h
      split at h
      · cases h
      · exact ih i sl todo h
    | add hp =>
      simp only [State.at] at h
      split at h
      · have := ih _ _ _ hp
        cases h
        unfold append; split <;> simp <;> omega
      · exact ih i sl todo h

theorem inv_reachable {grow : Nat → Nat} {hs : List Nat} {own : Nat → List Nat} {s : State} (h : Reachable grow hs own s) :
    Inv ((engineSlice grow hs).2.len = (engineSlice grow hs).2.cap) (engineSlice grow hs).2 hs own s := by
  unfold Reachable at h
  generalize hs0 : ({ mem := (engineSlice grow hs).1, pc := fun _ => .idle } : State) = s0 at h
  have h0 : ∀ i, s0.pc i = .idle := by subst hs0; intro i; rfl
  have hi : Inv ((engineSlice grow hs).2.len = (engineSlice grow hs).2.cap) (engineSlice grow hs).2 hs own s0 := by
    subst hs0
    obtain ⟨a, b⟩ := engineSlice_spec grow hs
    exact ⟨a, b, fun i => trivial, fun _ i j a _ h => by cases h⟩
  clear hs0
  induction h with
  | refl => exact hi
  | snoc hx st ih => exact inv_step ih (longer hx h0) st

/-- **C20** If the engine's hook slice has no spare capacity, every command that is through has called the engine hooks and its own, in this order, and before that a
prefix of them, whatever other commands do meanwhile. -/
theorem C20_own_hooks_only_partial {grow : Nat → Nat} {hs : List Nat} {own : Nat → List Nat} {s : State} (h : Reachable grow hs own s)
    (hfull : (engineSlice grow hs).2.len = (engineSlice grow hs).2.cap) {i : Nat} {called : List Nat} :
    (Called s i called → called <+: hs ++ own i) ∧ (Finished s i called → called = hs ++ own i) := by
  have hi := (inv_reachable h).good i
  constructor
  · rintro ⟨sl, hp⟩
    rw [hp] at hi
    rw [(hi.2.2.2.2 (.inr hfull)).1]; exact List.take_prefix _ _
  · rintro ⟨sl, hp, hl⟩
    rw [hp] at hi
    have h1 := (hi.2.2.2.2 (.inr hfull)).1
    have h2 := (hi.1 (.inr hfull)).1
    rw [h1, hl, h2, List.take_length]

/-- **C20** A command without hooks of its own always calls exactly the engine hooks. -/
theorem C20_no_own_hooks {grow : Nat → Nat} {hs : List Nat} {own : Nat → List Nat} {s : State} (h : Reachable grow hs own s)
    {i : Nat} (ho : own i = []) {called : List Nat} : (Called s i called → called <+: hs) ∧ (Finished s i called → called = hs) := by
  have hi := (inv_reachable h).good i
  constructor
  · rintro ⟨sl, hp⟩
    rw [hp] at hi
    have := (hi.2.2.2.2 (.inl ho)).1
    rw [ho, List.append_nil] at this
    rw [this]; exact List.take_prefix _ _
  · rintro ⟨sl, hp, hl⟩
    rw [hp] at hi
    have h1 := (hi.2.2.2.2 (.inl ho)).1
    have h2 := (hi.1 (.inl ho)).1
    rw [ho, List.append_nil] at h1 h2
    rw [h1, hl, h2, List.take_length]

/-- the capacity of the engine's slice under Go's growth rule. -/
theorem engineSlice_cap (hs : List Nat) : ∃ k, (engineSlice goGrow hs).2.len = hs.length ∧
    ((hs = [] ∧ (engineSlice goGrow hs).2.cap = 0) ∨ (hs ≠ [] ∧ (engineSlice goGrow hs).2.cap = 2 ^ k ∧ hs.length ≤ 2 ^ k ∧ 2 ^ k < 2 * hs.length)) := by
  unfold engineSlice
  rw [← List.reverse_reverse hs]
  induction hs.reverse with
  | nil => exact ⟨0, rfl, .inl ⟨rfl, rfl⟩⟩
  | cons h t ih =>
    rw [List.reverse_cons, List.foldl_append]
    simp only [List.foldl_cons, List.foldl_nil]
    obtain ⟨k, h1, h2⟩ := ih
    generalize (t.reverse.foldl (fun (m, s) h => append goGrow m s h) (({ cell := fun _ _ => 0, next := 1 } : Mem), ({ arr := 0, len := 0, cap := 0 } : Slice))) = ms at *
    obtain ⟨m, s⟩ := ms
    simp only at h1 h2 ⊢
    unfold append
    rcases h2 with ⟨hn, hc⟩ | ⟨hn, hc, h3, h4⟩
    · rw [hn] at h1 ⊢
      simp only [List.length_nil] at h1
      simp only [h1, hc, Nat.lt_irrefl, if_false, goGrow, if_true]
      exact ⟨0, by simp, .inr ⟨by simp, by simp, by simp, by simp⟩⟩
    · split
      · exact ⟨k, by simp [h1], .inr ⟨by simp, hc, by simp at *; omega, by simp at *; omega⟩⟩
      · have hl : s.len = 2 ^ k := by omega
        have hp : 0 < 2 ^ k := Nat.two_pow_pos k
        refine ⟨k + 1, by simp [h1], .inr ⟨by simp, ?_, ?_, ?_⟩⟩
        · simp only [goGrow, hl]; rw [if_neg (by omega), Nat.pow_succ]; omega
        · rw [Nat.pow_succ]; simp at *; omega
        · rw [Nat.pow_succ]; simp at *; omega

/-- **C20** With Go's growth rule the engine's slice is full exactly for 0, 1, 2, 4, 8, … engine hooks: then the hooks of commands never mix. -/
theorem C20_full_iff (hs : List Nat) : (engineSlice goGrow hs).2.len = (engineSlice goGrow hs).2.cap ↔ hs.length = 0 ∨ ∃ k, hs.length = 2 ^ k := by
  obtain ⟨k, h1, ⟨h2, h3⟩ | ⟨h2, h3, h4, h5⟩⟩ := engineSlice_cap hs
  · subst h2; simp [h1, h3]
  · rw [h1, h3]
    constructor
    · intro h; exact .inr ⟨k, h⟩
    · rintro (h | ⟨j, h⟩)
      · have := List.length_eq_zero_iff.1 h; contradiction
      · rw [h] at h4 h5 ⊢
        have a1 : j ≤ k := (Nat.pow_le_pow_iff_right (by omega)).1 h4
        have a2 : k < j + 1 := by
          have : 2 ^ k < 2 ^ (j + 1) := by rw [Nat.pow_succ]; omega
          exact (Nat.pow_lt_pow_iff_right (by omega)).1 this
        have : j = k := by omega
        rw [this]

example : (engineSlice goGrow [1, 2]).2 = ⟨2, 2, 2⟩ ∧ (engineSlice goGrow [1, 2]).1.read (engineSlice goGrow [1, 2]).2 = [1, 2] := by decide

/-- **C20** is false of the code with spare capacity, e.g. three engine hooks: command 0 calls the hook of command 1 and not its own. -/
theorem C20_hooks_mix : ∃ s, Reachable goGrow [1, 2, 3] (fun i => [10 + i]) s ∧ Finished s 0 [1, 2, 3, 11] ∧ Finished s 1 [1, 2, 3, 11] := by
  have hr : ∀ {s s'}, Reachable goGrow [1, 2, 3] (fun i => [10 + i]) s → Step goGrow (engineSlice goGrow [1, 2, 3]).2 (fun i => [10 + i]) s s' →
      Reachable goGrow [1, 2, 3] (fun i => [10 + i]) s' := fun h st => .snoc h st
  have he : (engineSlice goGrow [1, 2, 3]).2 = ⟨3, 3, 4⟩ := by decide
  have a0 : Reachable goGrow [1, 2, 3] (fun i => [10 + i]) _ := .refl _
  have a1 := hr a0 (.start (i := 0) rfl)
  have a2 := hr a1 (.start (i := 1) rfl)
  have a3 := hr a2 (.add (i := 0) rfl)
  have a4 := hr a3 (.add (i := 1) rfl)
  have a5 := hr a4 (.run (i := 0) rfl)
  have a6 := hr a5 (.call (i := 0) rfl (by decide))
  have a7 := hr a6 (.call (i := 0) rfl (by decide))
  have a8 := hr a7 (.call (i := 0) rfl (by decide))
  have a9 := hr a8 (.call (i := 0) rfl (by decide))
  have b5 := hr a9 (.run (i := 1) rfl)
  have b6 := hr b5 (.call (i := 1) rfl (by decide))
  have b7 := hr b6 (.call (i := 1) rfl (by decide))
  have b8 := hr b7 (.call (i := 1) rfl (by decide))
  have b9 := hr b8 (.call (i := 1) rfl (by decide))
  exact ⟨_, b9, ⟨⟨3, 4, 4⟩, by rfl, rfl⟩, ⟨⟨3, 4, 4⟩, by rfl, rfl⟩⟩

/-- the theorem is not vacuous: two engine hooks, two overlapping commands, both through. -/
theorem demo_two_commands : ∃ s, Reachable goGrow [1, 2] (fun i => [10 + i]) s ∧ Finished s 0 [1, 2, 10] ∧ Finished s 1 [1, 2, 11] := by
  have hr : ∀ {s s'}, Reachable goGrow [1, 2] (fun i => [10 + i]) s → Step goGrow (engineSlice goGrow [1, 2]).2 (fun i => [10 + i]) s s' →
      Reachable goGrow [1, 2] (fun i => [10 + i]) s' := fun h st => .snoc h st
  have a0 : Reachable goGrow [1, 2] (fun i => [10 + i]) _ := .refl _
  have a1 := hr a0 (.start (i := 0) rfl)
  have a2 := hr a1 (.start (i := 1) rfl)
  have a3 := hr a2 (.add (i := 0) rfl)
  have a4 := hr a3 (.add (i := 1) rfl)
  have a5 := hr a4 (.run (i := 0) rfl)
  have a6 := hr a5 (.call (i := 0) rfl (by decide))
  have a7 := hr a6 (.call (i := 0) rfl (by decide))
  have a8 := hr a7 (.call (i := 0) rfl (by decide))
  have b5 := hr a8 (.run (i := 1) rfl)
  have b6 := hr b5 (.call (i := 1) rfl (by decide))
  have b7 := hr b6 (.call (i := 1) rfl (by decide))
  have b8 := hr b7 (.call (i := 1) rfl (by decide))
  exact ⟨_, b8, ⟨⟨3, 3, 4⟩, by rfl, rfl⟩, ⟨⟨4, 3, 4⟩, by rfl, rfl⟩⟩

end Ddd.Hooks
