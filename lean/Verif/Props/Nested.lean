import Verif.Spec.Nested
import Verif.Props.Waiting
/-! # C127: nested commands and deadlock -/
set_option linter.unusedVariables false
set_option linter.unusedSimpArgs false
set_option linter.unnecessarySeqFocus false
namespace Ddd.Nested
open Ddd.Waiting (hasAdjacentDup_false) 
open Relation

/-- the keys held by frames -/
def heldOf (fs : List Frame) : List Nat := fs.flatMap Frame.got

/-- frames around the innermost one: all keys obtained, each frame's keys after those around it -/
inductive Around : List Frame → Prop
  | nil : Around []
  | cons {f fs} : f.todo = [] → f.releasing = false → f.got.Nodup → (∀ k ∈ f.got, ∀ h ∈ heldOf fs, h < k) → RisingAll (heldOf fs ++ f.got) f.inner → Around fs → Around (f :: fs)

/-- the frames of one process -/
def Good (fs : List Frame) : Prop := ∀ f gs, fs = f :: gs → Around gs ∧ (f.got ++ f.todo).Nodup ∧ f.todo.Pairwise (· < ·) ∧ (∀ k ∈ f.got ++ f.todo, ∀ h ∈ heldOf gs, h < k) ∧
  (∀ k ∈ f.todo, ∀ h ∈ f.got, h < k) ∧ (f.releasing = true → f.todo = []) ∧ (f.releasing = false → RisingAll (heldOf gs ++ (f.got ++ f.todo)) f.inner)

/-- invariant -/
structure Sound (s : State) : Prop where
  good : ∀ i, Good (s.procs i)
  holds : ∀ k i, s.holder k = some i ↔ k ∈ heldOf (s.procs i)

mutual
theorem rising_mono {a b : List Nat} (h : ∀ x ∈ b, x ∈ a) : ∀ c, Rising a c → Rising b c
  | .mk keys inner, hr => ⟨fun k hk x hx => hr.1 k hk x (h x hx), risingAll_mono (by intro x hx; simp at hx ⊢; rcases hx with hx | hx; exact .inl (h x hx); exact .inr hx) inner hr.2⟩
theorem risingAll_mono {a b : List Nat} (h : ∀ x ∈ b, x ∈ a) : ∀ cs, RisingAll a cs → RisingAll b cs
  | [], _ => trivial
  | c :: cs, hr => ⟨rising_mono h c hr.1, risingAll_mono h cs hr.2⟩
end

theorem around_nodup {fs : List Frame} (h : Around fs) : (heldOf fs).Nodup := by
  induction h with
  | nil => simp [heldOf]
  | @cons f fs h1 h2 h3 h4 h5 h6 ih =>
    simp only [heldOf, List.flatMap_cons] at *
    refine List.nodup_append.2 ⟨h3, ih, ?_⟩
    intro a ha b hb hab
    subst hab
    exact Nat.lt_irrefl _ (h4 a ha a hb)

theorem good_nodup {fs : List Frame} (h : Good fs) : (heldOf fs).Nodup := by
  cases fs with
  | nil => simp [heldOf]
  | cons f gs =>
    obtain ⟨h1, h2, _, h4, _⟩ := h f gs rfl
    simp only [heldOf, List.flatMap_cons]
    refine List.nodup_append.2 ⟨(List.nodup_append.1 h2).1, around_nodup h1, ?_⟩
    intro a ha b hb hab
    subst hab
    exact Nat.lt_irrefl _ (h4 a (by simp [ha]) a hb)

theorem good_push {c : Waiting.Cmd} {gs : List Frame} (hg : Around gs) (hc : Rising (heldOf gs) c) (h0 : frame c = none → Good gs) : Good (push c gs) := by
  cases c with
  | mk keys inner =>
    unfold push
    cases hf : frame (.mk keys inner) with
    | none => exact h0 hf
    | some f =>
      intro f' gs' he
      simp only [Option.toList_some, List.cons_append, List.nil_append, List.cons.injEq] at he
      obtain ⟨rfl, rfl⟩ := he
      unfold frame at hf
      by_cases hd : hasAdjacentDup (keys.insertionSort (· ≤ ·)) = true
      · simp [hd] at hf
      · dsimp only at hf
        rw [if_neg hd, Option.some.injEq] at hf
        have hlt : (keys.insertionSort (· ≤ ·)).Pairwise (· < ·) := hasAdjacentDup_false (List.pairwise_insertionSort _ _) (by simpa using hd)
        subst hf
        refine ⟨hg, ?_, hlt, ?_, by simp, by simp, ?_⟩
        · have : (keys.insertionSort (· ≤ ·)).Nodup := hlt.imp fun h => Nat.ne_of_lt h
          simpa using this
        · intro k hk h hh
          exact hc.1 k (by simpa using hk) h hh
        · intro _
          refine risingAll_mono ?_ inner hc.2
          intro x hx; simpa using hx

theorem heldOf_push (c : Waiting.Cmd) (gs : List Frame) : heldOf (push c gs) = heldOf gs := by
  cases c with
  | mk keys inner =>
    unfold push frame
    dsimp only
    split <;> simp [heldOf]

theorem sound_start {cmd : Nat → Waiting.Cmd} (h : ∀ i, Rising [] (cmd i)) : Sound (start cmd) where
  good := fun i => good_push .nil (h i) fun _ => by intro f gs he; cases he
  holds := by
    intro k i
    simp only [start, heldOf_push]
    simp [heldOf]

/-- the frames of one process change, the keys stay -/
theorem sound_put {s : State} {i : Nat} {fs : List Frame} (h : Sound s) (hg : Good fs) (hh : heldOf fs = heldOf (s.procs i)) : Sound (s.put i fs) where
  good := by
    intro j
    simp only [State.put]
    split
    · exact hg
    · exact h.good j
  holds := by
    intro k j
    simp only [State.put]
    rw [h.holds]
    split
    · rename_i e; subst e; rw [hh]
    · rfl

theorem sound_step {s s' : State} {i : Nat} (h : Sound s) (st : Step s i s') : Sound s' := by
  cases st with
  | go g =>
    cases g with
    | @lock k f ks fs hp hr ht hf =>
      obtain ⟨g1, g2, g3, g4, g5, g6, g7⟩ := h.good i f fs hp
      rw [ht] at g2 g3 g4 g5 g7
      have hnew : Good ({ f with todo := ks, got := f.got ++ [k] } :: fs) := by
        intro f' gs he
        simp only [List.cons.injEq] at he
        obtain ⟨rfl, rfl⟩ := he
        refine ⟨g1, by simpa using g2, (List.pairwise_cons.1 g3).2, by simpa using g4, ?_, by simp [hr], by simpa using g7⟩
        intro x hx y hy
        simp only [List.mem_append, List.mem_singleton] at hy
        rcases hy with hy | rfl
        · exact g5 x (by simp [hx]) y hy
        · exact (List.pairwise_cons.1 g3).1 x hx
      constructor
      · intro j
        simp only [State.put, State.own]
        split
        · exact hnew
        · exact h.good j
      · intro x j
        simp only [State.put, State.own]
        have hx := h.holds x j
        by_cases hj : j = i
        · subst hj
          rw [hp] at hx
          simp only [if_true]
          by_cases hxk : x = k
          · subst hxk; simp [heldOf]
          · simp only [hxk, if_false]
            rw [hx]
            simp [heldOf, hxk]
        · simp only [hj, if_false]
          by_cases hxk : x = k
          · subst hxk
            rw [hf] at hx
            simp only [if_true, Option.some.injEq]
            constructor
            · intro e; exact absurd e.symm hj
            · intro e; exact absurd (hx.2 e) (by simp)
          · simp only [hxk, if_false]; exact hx
    | @call f c cs fs hp hr ht hi =>
      obtain ⟨g1, g2, g3, g4, g5, g6, g7⟩ := h.good i f fs hp
      have g7' := g7 hr
      rw [hi, ht] at g7'
      rw [ht] at g2 g4
      simp only [List.append_nil] at g7' g2 g4
      have hrest : Around ({ f with inner := cs } :: fs) := .cons ht hr g2 g4 g7'.2 g1
      have hheld : heldOf ({ f with inner := cs } :: fs) = heldOf (s.procs i) := by rw [hp]; simp [heldOf]
      refine sound_put h (good_push hrest ?_ ?_) ?_
      · refine rising_mono ?_ c g7'.1
        intro x hx
        simp only [heldOf, List.flatMap_cons, List.mem_append] at hx ⊢
        tauto
      · intro _ f' gs he
        simp only [List.cons.injEq] at he
        obtain ⟨rfl, rfl⟩ := he
        refine ⟨g1, by simpa [ht] using g2, g3, by simpa [ht] using g4, by simp [ht], g6, ?_⟩
        intro _; simpa [ht] using g7'.2
      · rw [heldOf_push, hheld]
    | @over f fs hp hr ht hi =>
      obtain ⟨g1, g2, g3, g4, g5, g6, g7⟩ := h.good i f fs hp
      refine sound_put h ?_ (by rw [hp]; simp [heldOf])
      intro f' gs he
      simp only [List.cons.injEq] at he
      obtain ⟨rfl, rfl⟩ := he
      exact ⟨g1, g2, g3, g4, g5, fun _ => ht, by simp⟩
    | @unlock k f ks fs hp hr hgot =>
      obtain ⟨g1, g2, g3, g4, g5, g6, g7⟩ := h.good i f fs hp
      have hnd := good_nodup (h.good i)
      rw [hp] at hnd
      have ht := g6 hr
      rw [hgot] at g2 g4 g5
      have hnew : Good ({ f with got := ks } :: fs) := by
        intro f' gs he
        simp only [List.cons.injEq] at he
        obtain ⟨rfl, rfl⟩ := he
        refine ⟨g1, (List.nodup_cons.1 g2).2, g3, fun x hx => g4 x (by simp at hx ⊢; tauto), fun x hx y hy => g5 x hx y (by simp [hy]), g6, by simp [hr]⟩
      have hik : s.holder k = some i := (h.holds k i).2 (by rw [hp]; simp [heldOf, hgot])
      constructor
      · intro j
        simp only [State.put, State.own]
        split
        · exact hnew
        · exact h.good j
      · intro x j
        simp only [State.put, State.own]
        have hx := h.holds x j
        by_cases hj : j = i
        · subst hj
          rw [hp] at hx
          simp only [if_true]
          simp only [heldOf, List.flatMap_cons, hgot] at hx hnd ⊢
          by_cases hxk : x = k
          · subst hxk
            simp only [if_true]
            simp only [List.cons_append, List.nodup_cons] at hnd
            constructor
            · intro e; cases e
            · intro e; exact absurd e hnd.1
          · simp only [hxk, if_false]
            rw [hx]
            simp [hxk]
        · simp only [hj, if_false]
          by_cases hxk : x = k
          · subst hxk
            rw [hik] at hx
            simp only [if_true]
            constructor
            · intro e; cases e
            · intro e; have := hx.2 e; simp at this; exact absurd this.symm hj
          · simp only [hxk, if_false]; exact hx
    | @leave f fs hp hr hgot =>
      obtain ⟨g1, g2, g3, g4, g5, g6, g7⟩ := h.good i f fs hp
      refine sound_put h ?_ (by rw [hp]; simp [heldOf, hgot])
      intro f' gs he
      subst he
      cases g1 with
      | cons a1 a2 a3 a4 a5 a6 => exact ⟨a6, by simpa [a1] using a3, by simp [a1], by simpa [a1] using a4, by simp [a1], fun _ => a1, fun _ => by simpa [a1] using a5⟩
  | @refused _ k f ks fs hp hr ht =>
    obtain ⟨g1, g2, g3, g4, g5, g6, g7⟩ := h.good i f fs hp
    refine sound_put h ?_ (by rw [hp]; simp [heldOf])
    intro f' gs he
    simp only [List.cons.injEq] at he
    obtain ⟨rfl, rfl⟩ := he
    exact ⟨g1, by simpa using (List.nodup_append.1 g2).1, .nil, fun x hx => g4 x (by simp at hx ⊢; tauto), by simp, by simp, by simp⟩
  | @early _ f fs hp hr ht =>
    obtain ⟨g1, g2, g3, g4, g5, g6, g7⟩ := h.good i f fs hp
    refine sound_put h ?_ (by rw [hp]; simp [heldOf])
    intro f' gs he
    simp only [List.cons.injEq] at he
    obtain ⟨rfl, rfl⟩ := he
    exact ⟨g1, g2, g3, g4, g5, fun _ => ht, by simp⟩

theorem sound_steps {s s' : State} (st : Steps s s') (h : Sound s) : Sound s' := by
  induction st with
  | refl => exact h
  | snoc _ st ih => exact sound_step ih st

/-- a waiting holder waits for a larger key than any it holds -/
theorem waits_grow {s : State} (h : Sound s) {j k k' : Nat} {f : Frame} {fs : List Frame} {ks : List Nat} (hk : s.holder k = some j) (hp : s.procs j = f :: fs) (ht : f.todo = k' :: ks) : k < k' := by
  obtain ⟨g1, g2, g3, g4, g5, g6, g7⟩ := h.good j f fs hp
  have := (h.holds k j).1 hk
  rw [hp] at this
  simp only [heldOf, List.flatMap_cons, List.mem_append] at this
  rcases this with h' | h'
  · exact g5 k' (by simp [ht]) k h'
  · exact g4 k' (by simp [ht]) k h'

/-- C127: if every nested command only needs keys that come after all keys held around it, commands never wait for each other (or for themselves) in a circle: however many there are, however deeply they are nested, whatever is
refused and whichever `Main`s go on after a nested failure or return early, in every interleaving. -/
theorem C127_no_circular_wait_partial {cmd : Nat → Waiting.Cmd} (hr : ∀ i, Rising [] (cmd i)) {s : State} (h : Steps (start cmd) s) (i : Nat) : ¬ Deadlock s i := by
  have hs := sound_steps h (sound_start hr)
  have key : ∀ {i j}, TransGen (WaitsFor s) i j → ∃ f fs k ks, s.procs i = f :: fs ∧ f.todo = k :: ks ∧ ∀ f' fs' k' ks', s.procs j = f' :: fs' → f'.todo = k' :: ks' → k < k' := by
    intro i j hij
    induction hij with
    | single hw =>
      obtain ⟨f, fs, k, ks, h1, _, h2, h3⟩ := hw
      exact ⟨f, fs, k, ks, h1, h2, fun f' fs' k' ks' hp ht => waits_grow hs h3 hp ht⟩
    | tail _ hw ih =>
      obtain ⟨f, fs, k, ks, h1, h2, h3⟩ := ih
      obtain ⟨f1, fs1, k1, ks1, h4, _, h5, h6⟩ := hw
      exact ⟨f, fs, k, ks, h1, h2, fun f' fs' k' ks' hp ht => Nat.lt_trans (h3 _ _ _ _ h4 h5) (waits_grow hs h6 hp ht)⟩
  intro hc
  obtain ⟨f, fs, k, ks, h1, h2, h3⟩ := key hc
  exact Nat.lt_irrefl _ (h3 _ _ _ _ h1 h2)

theorem bounded {s s' : State} (st : Steps s s') (h : ∃ B, ∀ k i, s.holder k = some i → k < B) : ∃ B, ∀ k i, s'.holder k = some i → k < B := by
  induction st with
  | refl => exact h
  | snoc _ st ih =>
    obtain ⟨B, hB⟩ := ih
    cases st with
    | go g =>
      cases g with
      | @lock k f ks fs hp hr ht hf =>
        refine ⟨max B (k + 1), fun x i hx => ?_⟩
        simp only [State.put, State.own] at hx
        split at hx
        · omega
        · have := hB x i hx; omega
      | @unlock k f ks fs hp hr hg =>
        refine ⟨B, fun x i hx => ?_⟩
        simp only [State.put, State.own] at hx
        split at hx
        · cases hx
        · exact hB x i hx
      | call => exact ⟨B, hB⟩
      | over => exact ⟨B, hB⟩
      | leave => exact ⟨B, hB⟩
    | refused => exact ⟨B, hB⟩
    | early => exact ⟨B, hB⟩

/-- a process that is not through can go on unless it waits -/
theorem can_go {s : State} {j : Nat} {f : Frame} {fs : List Frame} (hp : s.procs j = f :: fs) (hw : ∀ k ks, f.releasing = false → f.todo = k :: ks → s.holder k = none) : ∃ s', Go s j s' := by
  cases hr : f.releasing with
  | true =>
    cases hg : f.got with
    | nil => exact ⟨_, .leave hp hr hg⟩
    | cons k ks => exact ⟨_, .unlock hp hr hg⟩
  | false =>
    cases ht : f.todo with
    | cons k ks => exact ⟨_, .lock hp hr ht (hw k ks hr ht)⟩
    | nil =>
      cases hi : f.inner with
      | nil => exact ⟨_, .over hp hr ht hi⟩
      | cons c cs => exact ⟨_, .call hp hr ht hi⟩

/-- C127: under the same condition every command that is not through can go on itself or waits (transitively) for one that can. -/
theorem C127_progress_partial {cmd : Nat → Waiting.Cmd} (hr : ∀ i, Rising [] (cmd i)) {s : State} (h : Steps (start cmd) s) {i : Nat} (hi : s.procs i ≠ []) :
    ∃ j, ReflTransGen (WaitsFor s) i j ∧ ∃ s', Go s j s' := by
  have hs := sound_steps h (sound_start hr)
  obtain ⟨B, hB⟩ := bounded h ⟨0, by simp [start]⟩
  have key : ∀ n i f fs k ks, s.procs i = f :: fs → f.releasing = false → f.todo = k :: ks → B - k ≤ n → ∃ j, ReflTransGen (WaitsFor s) i j ∧ ∃ s', Go s j s' := by
    intro n
    induction n with
    | zero =>
      intro i f fs k ks hp hrel ht hn
      cases hk : s.holder k with
      | none => exact ⟨i, .refl, _, .lock hp hrel ht hk⟩
      | some j => have := hB k j hk; omega
    | succ n ih =>
      intro i f fs k ks hp hrel ht hn
      cases hk : s.holder k with
      | none => exact ⟨i, .refl, _, .lock hp hrel ht hk⟩
      | some j =>
        have hw : WaitsFor s i j := ⟨f, fs, k, ks, hp, hrel, ht, hk⟩
        cases hj : s.procs j with
        | nil => have := (hs.holds k j).1 hk; rw [hj] at this; simp [heldOf] at this
        | cons f' fs' =>
          by_cases hwait : ∃ k' ks', f'.releasing = false ∧ f'.todo = k' :: ks'
          · obtain ⟨k', ks', hrel', ht'⟩ := hwait
            have := waits_grow hs hk hj ht'
            obtain ⟨m, h1, h2⟩ := ih j f' fs' k' ks' hj hrel' ht' (by omega)
            exact ⟨m, ReflTransGen.head hw h1, h2⟩
          · exact ⟨j, .single hw, can_go hj fun k' ks' a b => absurd ⟨k', ks', a, b⟩ hwait⟩
  cases hp : s.procs i with
  | nil => exact absurd hp hi
  | cons f fs =>
    by_cases hwait : ∃ k ks, f.releasing = false ∧ f.todo = k :: ks
    · obtain ⟨k, ks, hrel, ht⟩ := hwait
      exact key _ i f fs k ks hp hrel ht (Nat.le_refl _)
    · exact ⟨i, .refl, can_go hp fun k ks a b => absurd ⟨k, ks, a, b⟩ hwait⟩

/-- without any condition on the keys: what is held is what the frames have obtained, and no key is obtained twice -/
structure Kept (s : State) : Prop where
  once : ∀ i, (heldOf (s.procs i)).Nodup
  holds : ∀ k i, s.holder k = some i ↔ k ∈ heldOf (s.procs i)

theorem kept_put {s : State} {i : Nat} {fs : List Frame} (h : Kept s) (hh : heldOf fs = heldOf (s.procs i)) : Kept (s.put i fs) where
  once := by
    intro j
    simp only [State.put]
    split
    · rw [hh]; exact h.once i
    · exact h.once j
  holds := by
    intro k j
    simp only [State.put]
    rw [h.holds]
    split
    · rename_i e; subst e; rw [hh]
    · rfl

theorem kept_step {s s' : State} {i : Nat} (h : Kept s) (st : Step s i s') : Kept s' := by
  cases st with
  | go g =>
    cases g with
    | @lock k f ks fs hp hr ht hf =>
      have hno : k ∉ heldOf (f :: fs) := by
        intro hm
        have := (h.holds k i).2 (by rw [hp]; exact hm)
        rw [hf] at this; cases this
      have hnd := h.once i
      rw [hp] at hnd
      have hperm : (heldOf ({ f with todo := ks, got := f.got ++ [k] } :: fs)).Perm (k :: heldOf (f :: fs)) := by
        simp only [heldOf, List.flatMap_cons, List.append_assoc, List.singleton_append]
        exact List.perm_middle
      constructor
      · intro j
        simp only [State.put, State.own]
        split
        · rw [hperm.nodup_iff, List.nodup_cons]; exact ⟨hno, hnd⟩
        · exact h.once j
      · intro x j
        simp only [State.put, State.own]
        have hx := h.holds x j
        by_cases hj : j = i
        · subst hj
          rw [hp] at hx
          simp only [if_true]
          rw [hperm.mem_iff]
          by_cases hxk : x = k
          · subst hxk; simp
          · simp only [hxk, if_false, List.mem_cons, false_or]; exact hx
        · simp only [hj, if_false]
          by_cases hxk : x = k
          · subst hxk
            rw [hf] at hx
            simp only [if_true, Option.some.injEq]
            constructor
            · intro e; exact absurd e.symm hj
            · intro e; exact absurd (hx.2 e) (by simp)
          · simp only [hxk, if_false]; exact hx
    | @call f c cs fs hp hr ht hi => exact kept_put h (by rw [heldOf_push, hp]; simp [heldOf])
    | @over f fs hp hr ht hi => exact kept_put h (by rw [hp]; simp [heldOf])
    | @unlock k f ks fs hp hr hgot =>
      have hnd := h.once i
      rw [hp] at hnd
      have hik : s.holder k = some i := (h.holds k i).2 (by rw [hp]; simp [heldOf, hgot])
      simp only [heldOf, List.flatMap_cons, hgot, List.cons_append, List.nodup_cons] at hnd
      constructor
      · intro j
        simp only [State.put, State.own]
        split
        · simpa only [heldOf, List.flatMap_cons] using hnd.2
        · exact h.once j
      · intro x j
        simp only [State.put, State.own]
        have hx := h.holds x j
        by_cases hj : j = i
        · subst hj
          rw [hp] at hx
          simp only [if_true]
          simp only [heldOf, List.flatMap_cons, hgot] at hx ⊢
          by_cases hxk : x = k
          · subst hxk
            simp only [if_true]
            constructor
            · intro e; cases e
            · intro e; exact absurd e hnd.1
          · simp only [hxk, if_false]
            rw [hx]
            simp [hxk]
        · simp only [hj, if_false]
          by_cases hxk : x = k
          · subst hxk
            rw [hik] at hx
            simp only [if_true]
            constructor
            · intro e; cases e
            · intro e; have := hx.2 e; simp at this; exact absurd this.symm hj
          · simp only [hxk, if_false]; exact hx
    | @leave f fs hp hr hgot => exact kept_put h (by rw [hp]; simp [heldOf, hgot])
  | @refused _ k f ks fs hp hr ht => exact kept_put h (by rw [hp]; simp [heldOf])
  | @early _ f fs hp hr ht => exact kept_put h (by rw [hp]; simp [heldOf])

theorem kept_steps {cmd : Nat → Waiting.Cmd} {s : State} (h : Steps (start cmd) s) : Kept s := by
  generalize hs : start cmd = z at h
  induction h with
  | refl => subst hs; exact ⟨fun i => by simp only [start, heldOf_push]; simp [heldOf], fun k i => by simp only [start, heldOf_push]; simp [heldOf]⟩
  | snoc _ st ih => exact kept_step ih st

/-- C127: for all commands, rising or not: what is held is exactly what the commands under way have obtained and not yet released; nothing is left held when all commands of a process are through. -/
theorem C127_released {cmd : Nat → Waiting.Cmd} {s : State} (h : Steps (start cmd) s) (i : Nat) :
    (∀ k, s.holder k = some i ↔ ∃ f ∈ s.procs i, k ∈ f.got) ∧ (s.procs i = [] → ∀ k, s.holder k ≠ some i) := by
  have hs := kept_steps h
  have h1 : ∀ k, s.holder k = some i ↔ ∃ f ∈ s.procs i, k ∈ f.got := fun k => by rw [hs.holds]; simp [heldOf]
  exact ⟨h1, fun h0 k hk => by obtain ⟨f, hf, _⟩ := (h1 k).1 hk; rw [h0] at hf; cases hf⟩

/-- C127: a nested command that comes to request a key of a command around it waits for itself. -/
theorem C127_own_key {cmd : Nat → Waiting.Cmd} {s : State} (h : Steps (start cmd) s) {i k : Nat} {f g : Frame} {fs : List Frame} {ks : List Nat} (hp : s.procs i = f :: fs) (hr : f.releasing = false) (ht : f.todo = k :: ks)
    (hg : g ∈ fs) (hk : k ∈ g.got) : WaitsFor s i i ∧ Deadlock s i := by
  have hw : WaitsFor s i i := ⟨f, fs, k, ks, hp, hr, ht, ((C127_released h i).1 k).2 ⟨g, by rw [hp]; simp [hg], hk⟩⟩
  exact ⟨hw, .single hw⟩

/-- C127 without the condition is false, already for one command: a command that runs inside its `Main` a command with the same key waits for itself (see `C127_only_refusal_helps`). -/
theorem C127_waits_for_itself (k : Nat) : ∃ s, Steps (start fun _ => .mk [k] [.mk [k] []]) s ∧ Deadlock s 0 := by
  let f0 : Frame := ⟨[k], [], [.mk [k] []], false⟩
  have e : ∀ inner, frame (.mk [k] inner) = some ⟨[k], [], inner, false⟩ := by intro inner; simp [frame, hasAdjacentDup, List.insertionSort]
  have hp : (start fun _ => .mk [k] [.mk [k] []]).procs 0 = [f0] := by simp [start, push, e, f0]
  have h1 := Steps.snoc (.refl _) (.go (.lock (i := 0) (k := k) (ks := []) (f := f0) (fs := []) hp rfl rfl rfl))
  have h2 := h1.snoc (.go (.call (i := 0) (f := ⟨[], [k], [.mk [k] []], false⟩) (c := .mk [k] []) (cs := []) (fs := []) (by simp [State.put, State.own, f0]) rfl rfl rfl))
  refine ⟨_, h2, .single ⟨⟨[k], [], [], false⟩, [⟨[], [k], [], false⟩], k, [], ?_, rfl, rfl, ?_⟩⟩
  · simp [State.put, push, e]
  · simp [State.put, State.own]

/-- C127: once a process waits for a key it holds itself, the only thing it ever does is to be refused that key: no step of another process helps it. -/
theorem C127_only_refusal_helps {cmd : Nat → Waiting.Cmd} {s s' : State} {i j : Nat} (h : Steps (start cmd) s) {f : Frame} {fs : List Frame} {k : Nat} {ks : List Nat}
    (hp : s.procs i = f :: fs) (hrel : f.releasing = false) (ht : f.todo = k :: ks) (hk : s.holder k = some i) (st : Step s j s') :
    (j ≠ i ∧ s'.procs i = f :: fs ∧ s'.holder k = some i) ∨ (j = i ∧ s' = s.put i ({ f with todo := [], inner := [], releasing := true } :: fs)) := by
  by_cases hj : j = i
  · subst hj
    refine .inr ⟨rfl, ?_⟩
    cases st with
    | go g =>
      cases g with
      | lock hq _ hq2 hq3 => rw [hp] at hq; cases hq; rw [ht] at hq2; cases hq2; rw [hk] at hq3; cases hq3
      | call hq _ hq2 => rw [hp] at hq; cases hq; simp [ht] at hq2
      | over hq _ hq2 => rw [hp] at hq; cases hq; simp [ht] at hq2
      | unlock hq hq2 => rw [hp] at hq; cases hq; simp [hrel] at hq2
      | leave hq hq2 => rw [hp] at hq; cases hq; simp [hrel] at hq2
    | refused hq _ hq2 => rw [hp] at hq; cases hq; rfl
    | early hq _ hq2 => rw [hp] at hq; cases hq; simp [ht] at hq2
  · refine .inl ⟨hj, ?_, ?_⟩
    · have hi : ∀ (x : State) l, (x.put j l).procs i = x.procs i := by intro x l; simp [State.put, Ne.symm hj]
      cases st with
      | go g => cases g <;> simp [State.put, State.own, Ne.symm hj, hp]
      | refused => simp [State.put, Ne.symm hj, hp]
      | early => simp [State.put, Ne.symm hj, hp]
    · cases st with
      | go g =>
        cases g with
        | @lock k' f' ks' fs' hp' hr' ht' hf' =>
          simp only [State.put, State.own]
          split
          · rename_i e; subst e; rw [hk] at hf'; cases hf'
          · exact hk
        | @unlock k' f' ks' fs' hp' hr' hg' =>
          simp only [State.put, State.own]
          split
          · rename_i e; subst e
            have := ((C127_released h j).1 k).2 ⟨f', by rw [hp']; simp, by simp [hg']⟩
            rw [hk] at this
            simp at this
            exact absurd this.symm hj
          · exact hk
        | call => exact hk
        | over => exact hk
        | leave => exact hk
      | refused => exact hk
      | early => exact hk

/-- the hypotheses can be met: two commands nested three deep with rising keys, using common keys -/
example : Rising [] (.mk [1] [.mk [3, 2] [], .mk [2] [.mk [5] []]]) ∧ Rising [] (.mk [2] [.mk [3] []]) := by simp [Rising, RisingAll]

/-- and one of them can come to wait for the other: command 0 holds key 1 and its second nested command needs key 2, which command 1 holds. -/
theorem rising_demo : ∃ s, Steps (start fun i => if i = 0 then .mk [1] [.mk [1, 1] [], .mk [2] []] else .mk [2] [.mk [3] []]) s ∧ WaitsFor s 0 1 := by
  let f0 : Frame := ⟨[1], [], [.mk [1, 1] [], .mk [2] []], false⟩
  let f1 : Frame := ⟨[2], [], [.mk [3] []], false⟩
  have e : ∀ k inner, frame (.mk [k] inner) = some ⟨[k], [], inner, false⟩ := by intro k inner; simp [frame, hasAdjacentDup, List.insertionSort]
  have e2 : ∀ k inner, frame (.mk [k, k] inner) = none := by intro k inner; simp [frame, hasAdjacentDup, List.insertionSort]
  have hp : (start fun i => if i = 0 then .mk [1] [.mk [1, 1] [], .mk [2] []] else .mk [2] [.mk [3] []]).procs = fun i => if i = 0 then [f0] else [f1] := by
    funext i; by_cases h : i = 0 <;> simp [start, push, e, f0, f1, h]
  have h1 := Steps.snoc (.refl _) (.go (.lock (i := 0) (k := 1) (ks := []) (f := f0) (fs := []) (by rw [hp]; simp) rfl rfl rfl))
  have h2 := h1.snoc (.go (.lock (i := 1) (k := 2) (ks := []) (f := f1) (fs := []) (by simp [State.put, State.own, hp]) rfl rfl (by simp [State.put, State.own, start])))
  have h3 := h2.snoc (.go (.call (i := 0) (f := ⟨[], [1], [.mk [1, 1] [], .mk [2] []], false⟩) (c := .mk [1, 1] []) (cs := [.mk [2] []]) (fs := []) (by simp [State.put, State.own, f0]) rfl rfl rfl))
  have h4 := h3.snoc (.go (.call (i := 0) (f := ⟨[], [1], [.mk [2] []], false⟩) (c := .mk [2] []) (cs := []) (fs := []) (by simp [State.put, push, e2]) rfl rfl rfl))
  refine ⟨_, h4, ⟨⟨[2], [], [], false⟩, [⟨[], [1], [], false⟩], 2, [], ?_, rfl, rfl, ?_⟩⟩
  · simp [State.put, push, e]
  · simp [State.put, State.own]

end Ddd.Nested
