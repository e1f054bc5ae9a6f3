import Verif.Proofs.Move2
/-! The changes a save acts on: `handleEntityMove` after `entityDiff`. -/
set_option linter.unusedSectionVars false
set_option linter.unusedVariables false
namespace Ddd
open Spec
variable {N : Type} [DecidableEq N]

theorem mem_sortChanges {cs : List (Change N)} {c : Change N} : c ∈ sortChanges cs ↔ c ∈ cs :=
  (List.perm_insertionSort _ _).mem_iff

/-- some record of type `t` lists `e`. -/
def Lists (cs : List (Change N)) (t : ChangeType) (e : N) : Prop := ∃ c ∈ cs, c.ctype = t ∧ e ∈ c.children

theorem twice_iff {cs : List (Change N)} (hl : Legit cs) (e : N) :
    Twice (InRec cs) e ↔ Lists cs .new e ∧ Lists cs .delete e := by
  constructor
  · rintro ⟨i, j, hij, hi, hj⟩
    obtain ⟨ci, hci, hei⟩ := hi
    obtain ⟨cj, hcj, hej⟩ := hj
    have mi := List.mem_of_getElem? hci
    have mj := List.mem_of_getElem? hcj
    rcases hl i j e ⟨ci, hci, hei⟩ ⟨cj, hcj, hej⟩ hij with ⟨h1, h2⟩ | ⟨h1, h2⟩ <;>
      simp only [RecTy, hci, hcj, Option.map_some, Option.some.injEq] at h1 h2
    · exact ⟨⟨ci, mi, h1, hei⟩, ⟨cj, mj, h2, hej⟩⟩
    · exact ⟨⟨cj, mj, h2, hej⟩, ⟨ci, mi, h1, hei⟩⟩
  · rintro ⟨⟨a, ha, hat, hae⟩, ⟨b, hb, hbt, hbe⟩⟩
    obtain ⟨i, hi, rfl⟩ := List.mem_iff_getElem.1 ha
    obtain ⟨j, hj, rfl⟩ := List.mem_iff_getElem.1 hb
    refine ⟨i, j, ?_, ⟨_, List.getElem?_eq_getElem hi, hae⟩, ⟨_, List.getElem?_eq_getElem hj, hbe⟩⟩
    rintro rfl
    rw [hat] at hbt; cases hbt

/-- what the changes of a save say about one entity, from the records of `entityDiff`. -/
theorem handleEntityMove_mem (cs : List (Change N)) (hnd : ∀ c ∈ cs, c.children.Nodup) {res : List (Change N)}
    (h : handleEntityMove cs = some res) (t : ChangeType) (p : N) (k : Key) (e : N) :
    (∃ ch ∈ res, ch.ctype = t ∧ ch.parent = p ∧ ch.key = k ∧ e ∈ ch.children) ↔
      ((∃ ch ∈ cs, ch.ctype = t ∧ ch.parent = p ∧ ch.key = k ∧ e ∈ ch.children) ∧
        ¬ (Lists cs .new e ∧ Lists cs .delete e)) ∨
      (t = .dirty ∧ (∃ ch ∈ cs, ch.ctype = .new ∧ ch.parent = p ∧ ch.key = k ∧ e ∈ ch.children) ∧
        Lists cs .delete e) := by
  obtain ⟨st, hinv, rfl⟩ := handleEntityMove_result cs hnd h
  have hl : Legit (sortChanges cs) := hinv.legit
  have hL : ∀ t, Lists (sortChanges cs) t e ↔ Lists cs t e := by
    intro t; simp [Lists, mem_sortChanges]
  have htw := twice_iff hl e
  rw [hL, hL] at htw
  simp only [List.mem_append, List.mem_map]
  constructor
  · rintro ⟨ch, (⟨it, hit, rfl⟩ | hx), rfl, rfl, rfl, he⟩
    · left
      obtain ⟨i, hi, rfl⟩ := List.mem_iff_getElem.1 hit
      have hi' : i < (sortChanges cs).length := by rw [← hinv.len]; exact hi
      obtain ⟨it', h1, h2, h3, h4, h5, _⟩ := hinv.items i _ (List.getElem?_eq_getElem hi')
      rw [List.getElem?_eq_getElem hi] at h1
      simp only [Option.some.injEq] at h1
      subst h1
      have := (h5 e).1 he
      refine ⟨⟨_, mem_sortChanges.1 (List.getElem_mem hi'), h2.symm, h3.symm, h4.symm, this.1⟩, ?_⟩
      rw [← htw]
      intro hw
      exact this.2 ⟨hw, _, List.getElem?_eq_getElem hi', this.1⟩
    · right
      obtain ⟨e', i, c, rfl, hc, hcn, hP, hw⟩ := hinv.extra1 ch hx
      simp only [List.mem_singleton] at he
      subst he
      obtain ⟨c', hc', he'⟩ := hP
      rw [hc] at hc'; simp only [Option.some.injEq] at hc'; subst hc'
      exact ⟨rfl, ⟨c, mem_sortChanges.1 (List.mem_of_getElem? hc), hcn, rfl, rfl, he'⟩, (htw.1 hw).2⟩
  · rintro (⟨⟨ch, hch, rfl, rfl, rfl, he⟩, hno⟩ | ⟨rfl, ⟨ch, hch, hn, rfl, rfl, he⟩, hd⟩)
    · obtain ⟨i, hi, rfl⟩ := List.mem_iff_getElem.1 (mem_sortChanges.2 hch)
      obtain ⟨it, h1, h2, h3, h4, h5, _⟩ := hinv.items i _ (List.getElem?_eq_getElem hi)
      refine ⟨it.toChange, Or.inl ⟨it, List.mem_of_getElem? h1, rfl⟩, h2, h3, h4, ?_⟩
      refine (h5 e).2 ⟨he, ?_⟩
      rw [htw]
      exact fun h => hno h.1
    · have hw : Twice (InRec (sortChanges cs)) e := htw.2 ⟨⟨ch, hch, hn, he⟩, hd⟩
      have := hinv.extra2 e hw
      rw [List.mem_flatMap] at this
      obtain ⟨x, hx, hex⟩ := this
      obtain ⟨e', i, c, rfl, hc, hcn, hP, _⟩ := hinv.extra1 x hx
      simp only [List.mem_singleton] at hex
      subst hex
      -- the new record is unique
      obtain ⟨j, hj, hjc⟩ := List.mem_iff_getElem.1 (mem_sortChanges.2 hch)
      have hji : j = i := by
        by_contra hne
        rcases hl j i e ⟨ch, by rw [List.getElem?_eq_getElem hj, hjc], he⟩ hP hne with ⟨h1, h2⟩ | ⟨h1, h2⟩
        · simp [RecTy, hc, hcn] at h2
        · rw [RecTy, List.getElem?_eq_getElem hj, hjc] at h1
          simp [hn] at h1
      subst hji
      rw [List.getElem?_eq_getElem hj, hjc] at hc
      simp only [Option.some.injEq] at hc
      subst hc
      exact ⟨_, Or.inr hx, rfl, rfl, rfl, by simp⟩

/-- every entity is listed at most once. -/
theorem handleEntityMove_nodup (cs : List (Change N)) (hnd : ∀ c ∈ cs, c.children.Nodup) {res : List (Change N)}
    (h : handleEntityMove cs = some res) : (res.flatMap Change.children).Nodup := by
  obtain ⟨st, hinv, rfl⟩ := handleEntityMove_result cs hnd h
  have key : ∀ i (hi : i < st.items.length), ∃ c, (sortChanges cs)[i]? = some c ∧ c ∈ cs ∧
      (∀ e, e ∈ (st.items[i]).children ↔ e ∈ c.children ∧ ¬ (Twice (InRec (sortChanges cs)) e ∧
        InRec (sortChanges cs) i e)) ∧ (st.items[i]).children.Sublist c.children := by
    intro i hi
    have hi' : i < (sortChanges cs).length := by rw [← hinv.len]; exact hi
    obtain ⟨it', h1, _, _, _, h5, h6, _⟩ := hinv.items i _ (List.getElem?_eq_getElem hi')
    rw [List.getElem?_eq_getElem hi] at h1
    simp only [Option.some.injEq] at h1
    subst h1
    exact ⟨_, List.getElem?_eq_getElem hi', mem_sortChanges.1 (List.getElem_mem hi'), h5, h6⟩
  rw [List.flatMap_append, List.nodup_append]
  refine ⟨?_, hinv.extra3, ?_⟩
  · rw [List.flatMap_map]
    rw [List.nodup_flatMap]
    refine ⟨?_, ?_⟩
    · intro it hit
      obtain ⟨i, hi, rfl⟩ := List.mem_iff_getElem.1 hit
      obtain ⟨c, _, hc, _, hs⟩ := key i hi
      exact (hnd c hc).sublist hs
    · rw [List.pairwise_iff_getElem]
      intro i j hi hj hij e he1 he2
      obtain ⟨c, hc, _, hm, _⟩ := key i hi
      obtain ⟨c', hc', _, hm', _⟩ := key j hj
      have a1 := (hm e).1 he1
      have a2 := (hm' e).1 he2
      exact a1.2 ⟨⟨i, j, by omega, ⟨c, hc, a1.1⟩, ⟨c', hc', a2.1⟩⟩, ⟨c, hc, a1.1⟩⟩
  · intro a ha b hb hab
    subst hab
    rw [List.flatMap_map, List.mem_flatMap] at ha
    obtain ⟨it, hit, hae⟩ := ha
    obtain ⟨i, hi, rfl⟩ := List.mem_iff_getElem.1 hit
    obtain ⟨c, hc, _, hm, _⟩ := key i hi
    have a1 := (hm a).1 hae
    rw [List.mem_flatMap] at hb
    obtain ⟨x, hx, hax⟩ := hb
    obtain ⟨e', _, _, rfl, _, _, _, hw⟩ := hinv.extra1 x hx
    simp only [List.mem_singleton] at hax
    subst hax
    exact a1.2 ⟨hw, c, hc, a1.1⟩

end Ddd

namespace Ddd
open Spec
variable {N : Type} [DecidableEq N]

/-- the change type of a way. -/
def Spec.Way.ctype : Way → ChangeType
  | .added => .new | .touched => .dirty | .gone => .delete

theorem changedAt_iff (g : Graph N) (d : N → Bool) (pool : KidPool N) (hk : pool.Keys) (root : N) (w : Way) (p : N) (k : Key) (c : N) :
    (∃ ch ∈ entityDiff g d pool root, ch.ctype = w.ctype ∧ ch.parent = p ∧ ch.key = k ∧ c ∈ ch.children) ↔
      ChangedAt g.kids pool d root w p k c := by
  rw [entityDiff_char g d pool hk]
  cases w with
  | added => rfl
  | touched => rfl
  | gone =>
    simp only [Way.ctype, DiffAt, ChangedAt, Gone]
    constructor
    · rintro ⟨h1, h2, h3, h4⟩; exact ⟨h1, h3, h2, h4⟩
    · rintro ⟨h1, h2, h3, h4⟩; exact ⟨h1, h3, h2, h4⟩

theorem entityDiff_ctype (g : Graph N) (d : N → Bool) (pool : KidPool N) (hk : pool.Keys) (root : N) {ch : Change N}
    (h : ch ∈ entityDiff g d pool root) : ∃ w : Way, ch.ctype = w.ctype := by
  obtain ⟨p, k, cs, _, _, h⟩ := (entityDiff_mem g d pool hk root ch).1 h
  simp only [mem_mkChange] at h
  rcases h with ⟨_, rfl⟩ | ⟨_, rfl⟩ | ⟨_, rfl⟩
  · exact ⟨.added, rfl⟩
  · exact ⟨.touched, rfl⟩
  · exact ⟨.gone, rfl⟩

theorem ctype_inj {w w' : Way} (h : w.ctype = w'.ctype) : w = w' := by
  cases w <;> cases w' <;> simp_all [Way.ctype]

/-- a conflict makes `handleEntityMove` fail. -/
theorem plan_conflict (g : Graph N) (d : N → Bool) (pool : KidPool N) (hk : pool.Keys) (root c : N)
    (h : Conflict g.kids pool d root c) : handleEntityMove (entityDiff g d pool root) = none := by
  have hnd : ∀ ch ∈ entityDiff g d pool root, ch.children.Nodup := fun ch hch =>
    (entityDiff_children g d pool hk root ch hch).2
  by_contra hne
  have hs : (handleEntityMove (entityDiff g d pool root)).isSome := by
    rwa [Option.isSome_iff_ne_none]
  obtain ⟨hl, _⟩ := (handleEntityMove_isSome _ hnd).1 hs
  obtain ⟨w, p, k, w', p', k', h1, h2, hne', h3, h4⟩ := h
  obtain ⟨a, ha, hat, rfl, rfl, hac⟩ := (changedAt_iff g d pool hk root w p k c).2 h1
  obtain ⟨b, hb, hbt, rfl, rfl, hbc⟩ := (changedAt_iff g d pool hk root w' p' k' c).2 h2
  obtain ⟨i, hi, hia⟩ := List.mem_iff_getElem.1 (mem_sortChanges.2 ha)
  obtain ⟨j, hj, hjb⟩ := List.mem_iff_getElem.1 (mem_sortChanges.2 hb)
  have ei := List.getElem?_eq_getElem hi
  have ej := List.getElem?_eq_getElem hj
  rw [hia] at ei; rw [hjb] at ej
  have hij : i ≠ j := by
    rintro rfl
    have : a = b := hia.symm.trans hjb
    subst this
    rw [hat] at hbt
    exact hne' (by rw [ctype_inj hbt])
  rcases hl i j c ⟨a, ei, hac⟩ ⟨b, ej, hbc⟩ hij with ⟨q1, q2⟩ | ⟨q1, q2⟩ <;>
    simp only [RecTy, ei, ej, Option.map_some, Option.some.injEq, hat, hbt] at q1 q2
  · exact h3 ⟨ctype_inj (w' := .added) q1, ctype_inj (w' := .gone) q2⟩
  · exact h4 ⟨ctype_inj (w' := .gone) q1, ctype_inj (w' := .added) q2⟩

/-- with one place per entity, no conflict and small groups, `handleEntityMove` succeeds. -/
theorem plan_succeeds (g : Graph N) (d : N → Bool) (pool : KidPool N) (hk : pool.Keys) (root : N)
    (hone : OnePlace g.kids root) (hno : ∀ c, ¬ Conflict g.kids pool d root c)
    (hsmall : ∀ p k x a b c, Gone g.kids pool root p k x → (∃ p' k', Added g.kids pool root p' k' x) →
      Gone g.kids pool root p k a → Gone g.kids pool root p k b → Gone g.kids pool root p k c →
      a = b ∨ b = c ∨ a = c) :
    (handleEntityMove (entityDiff g d pool root)).isSome := by
  have hnd : ∀ ch ∈ entityDiff g d pool root, ch.children.Nodup := fun ch hch =>
    (entityDiff_children g d pool hk root ch hch).2
  rw [handleEntityMove_isSome _ hnd]
  have htags : ((sortChanges (entityDiff g d pool root)).map Change.tag).Nodup :=
    ((List.perm_insertionSort _ _).map _).nodup_iff.2 (entityDiff_tag_nodup g d pool hk root root hone .root)
  have at_ : ∀ ch ∈ sortChanges (entityDiff g d pool root), ∀ c ∈ ch.children, ∃ w : Way, ch.ctype = w.ctype ∧
      ChangedAt g.kids pool d root w ch.parent ch.key c := by
    intro ch hch c hc
    have hch := mem_sortChanges.1 hch
    obtain ⟨w, hw⟩ := entityDiff_ctype g d pool hk root hch
    exact ⟨w, hw, (changedAt_iff g d pool hk root w _ _ c).1 ⟨ch, hch, hw, rfl, rfl, hc⟩⟩
  refine ⟨?_, ?_⟩
  · rintro i j e ⟨a, ha, hae⟩ ⟨b, hb, hbe⟩ hij
    obtain ⟨w, hw, hwa⟩ := at_ a (List.mem_of_getElem? ha) e hae
    obtain ⟨w', hw', hwb⟩ := at_ b (List.mem_of_getElem? hb) e hbe
    have hne : (w, a.parent, a.key) ≠ (w', b.parent, b.key) := by
      intro heq
      simp only [Prod.mk.injEq] at heq
      have htag : a.tag = b.tag := by simp [Change.tag, hw, hw', heq]
      rw [List.getElem?_eq_some_iff] at ha hb
      obtain ⟨hi, rfl⟩ := ha
      obtain ⟨hj, rfl⟩ := hb
      have := List.nodup_iff_injective_get.1 htags
      have := @this ⟨i, by simpa using hi⟩ ⟨j, by simpa using hj⟩ (by simpa using htag)
      simp only [Fin.mk.injEq] at this
      exact hij this
    by_contra hcon
    refine hno e ⟨w, _, _, w', _, _, hwa, hwb, hne, ?_, ?_⟩
    · rintro ⟨rfl, rfl⟩
      exact hcon (Or.inl ⟨by simp [RecTy, ha, hw, Way.ctype], by simp [RecTy, hb, hw', Way.ctype]⟩)
    · rintro ⟨rfl, rfl⟩
      exact hcon (Or.inr ⟨by simp [RecTy, ha, hw, Way.ctype], by simp [RecTy, hb, hw', Way.ctype]⟩)
  · intro ch hch hdel j x hj hx i hi hnew
    obtain ⟨a, ha, hax⟩ := hi
    have hgone : ∀ c ∈ ch.children, Gone g.kids pool root ch.parent ch.key c := by
      intro c hc
      obtain ⟨w, hw, h⟩ := at_ ch hch c hc
      rw [hdel] at hw
      have : w = .gone := ctype_inj (w' := .gone) hw.symm
      subst this; exact h
    obtain ⟨w, hw, hadd⟩ := at_ a (List.mem_of_getElem? ha) x hax
    have hnew : a.ctype = .new := by simpa [RecTy, ha] using hnew
    rw [hnew] at hw
    have : w = .added := ctype_inj (w' := .added) hw.symm
    subst this
    have hn := hnd ch (mem_sortChanges.1 hch)
    have l0 : 0 < ch.children.length := by omega
    have l1 : 1 < ch.children.length := by omega
    have l2 : 2 < ch.children.length := by omega
    have key := hsmall ch.parent ch.key x _ _ _ (hgone x (List.mem_of_getElem? hx)) ⟨_, _, hadd⟩
      (hgone _ (List.getElem_mem l0)) (hgone _ (List.getElem_mem l1)) (hgone _ (List.getElem_mem l2))
    have inj : ∀ u v (hu : u < ch.children.length) (hv : v < ch.children.length), ch.children[u] = ch.children[v] → u = v :=
      fun u v hu hv h => (List.Nodup.getElem_inj_iff hn).1 h
    rcases key with h | h | h
    · exact absurd (inj _ _ _ _ h) (by omega)
    · exact absurd (inj _ _ _ _ h) (by omega)
    · exact absurd (inj _ _ _ _ h) (by omega)

/-- without conflicts the list of changes is legit. -/
theorem plan_legit (g : Graph N) (d : N → Bool) (pool : KidPool N) (hk : pool.Keys) (root : N)
    (hone : OnePlace g.kids root) (hno : ∀ c, ¬ Conflict g.kids pool d root c) : Legit (sortChanges (entityDiff g d pool root)) := by
  have htags : ((sortChanges (entityDiff g d pool root)).map Change.tag).Nodup :=
    ((List.perm_insertionSort _ _).map _).nodup_iff.2 (entityDiff_tag_nodup g d pool hk root root hone .root)
  have at_ : ∀ ch ∈ sortChanges (entityDiff g d pool root), ∀ c ∈ ch.children, ∃ w : Way, ch.ctype = w.ctype ∧
      ChangedAt g.kids pool d root w ch.parent ch.key c := by
    intro ch hch c hc
    have hch := mem_sortChanges.1 hch
    obtain ⟨w, hw⟩ := entityDiff_ctype g d pool hk root hch
    exact ⟨w, hw, (changedAt_iff g d pool hk root w _ _ c).1 ⟨ch, hch, hw, rfl, rfl, hc⟩⟩
  rintro i j e ⟨a, ha, hae⟩ ⟨b, hb, hbe⟩ hij
  obtain ⟨w, hw, hwa⟩ := at_ a (List.mem_of_getElem? ha) e hae
  obtain ⟨w', hw', hwb⟩ := at_ b (List.mem_of_getElem? hb) e hbe
  have hne : (w, a.parent, a.key) ≠ (w', b.parent, b.key) := by
    intro heq
    simp only [Prod.mk.injEq] at heq
    have htag : a.tag = b.tag := by simp [Change.tag, hw, hw', heq]
    rw [List.getElem?_eq_some_iff] at ha hb
    obtain ⟨hi, rfl⟩ := ha
    obtain ⟨hj, rfl⟩ := hb
    have := List.nodup_iff_injective_get.1 htags
    have := @this ⟨i, by simpa using hi⟩ ⟨j, by simpa using hj⟩ (by simpa using htag)
    simp only [Fin.mk.injEq] at this
    exact hij this
  by_contra hcon
  refine hno e ⟨w, _, _, w', _, _, hwa, hwb, hne, ?_, ?_⟩
  · rintro ⟨rfl, rfl⟩
    exact hcon (Or.inl ⟨by simp [RecTy, ha, hw, Way.ctype], by simp [RecTy, hb, hw', Way.ctype]⟩)
  · rintro ⟨rfl, rfl⟩
    exact hcon (Or.inr ⟨by simp [RecTy, ha, hw, Way.ctype], by simp [RecTy, hb, hw', Way.ctype]⟩)

/-- the slice of removed children: those after `x` come after the last `x` in the recorded list. -/
theorem deletedOf_split {cur a b : List N} {x : N} (hb : x ∉ b) (hx : x ∉ cur) :
    ∃ pre, deletedOf cur (a ++ x :: b) = pre ++ x :: (b.dedup.filter fun c => decide (c ∉ cur)) := by
  rw [deletedOf_eq, List.dedup_append, List.dedup_cons_of_notMem hb]
  obtain ⟨pre, hp⟩ := List.suffix_union_right a (x :: b.dedup)
  rw [← hp, List.filter_append, List.filter_cons_of_pos (by simpa using hx)]
  exact ⟨_, rfl⟩

theorem two_le_iff {l : List N} (h : l.Nodup) : 2 ≤ l.length ↔ ¬ ∀ y ∈ l, ∀ z ∈ l, y = z := by
  match l with
  | [] => simp
  | [a] => simp
  | a :: b :: l =>
    simp only [List.nodup_cons, List.mem_cons, not_or] at h
    constructor
    · intro _ hh
      exact h.1.1 (hh a (by simp) b (by simp))
    · intro _; simp

/-- an aggregate without conflicts is accepted exactly if of the children removed from one field, those added elsewhere are the last two recorded. -/
theorem plan_iff (g : Graph N) (d : N → Bool) (pool : KidPool N) (hk : pool.Keys) (root : N)
    (hone : OnePlace g.kids root) (hno : ∀ c, ¬ Conflict g.kids pool d root c) :
    (handleEntityMove (entityDiff g d pool root)).isSome ↔
      ∀ p k fs a x b, pool p = some fs → (k, a ++ x :: b) ∈ fs → x ∉ b → Gone g.kids pool root p k x → (∃ p' k', Added g.kids pool root p' k' x) →
        ∀ y ∈ b, ∀ z ∈ b, Gone g.kids pool root p k y → Gone g.kids pool root p k z → y = z := by
  have hnd : ∀ ch ∈ entityDiff g d pool root, ch.children.Nodup := fun ch hch =>
    (entityDiff_children g d pool hk root ch hch).2
  rw [handleEntityMove_isSome _ hnd]
  have hleg := plan_legit g d pool hk root hone hno
  simp only [hleg, true_and]
  have snap : ∀ {p k fs cs}, pool p = some fs → (k, cs) ∈ fs → snapKids pool p k = cs := by
    intro p k fs cs hp hm
    unfold snapKids
    rw [hp]
    have hkey : (fs.map Prod.fst).Nodup := hk p fs hp
    cases hf : fs.find? fun g => g.1 == k with
    | none =>
      rw [List.find?_eq_none] at hf
      exact absurd (hf _ hm) (by simp)
    | some grp =>
      have h1 := List.mem_of_find?_eq_some hf
      have h2 := List.find?_some hf
      simp only [beq_iff_eq] at h2
      obtain ⟨k', cs'⟩ := grp
      simp only at h2; subst h2
      simp [hf, mem_unique_key hkey h1 hm]
  constructor
  · intro hlate p k fs a x b hp hm hb hgone hadd y hy z hz hgy hgz
    by_contra hne
    obtain ⟨hr, ⟨cs, hg⟩, hhad, hnot⟩ := hgone
    have hx : x ∉ cs := fun h => hnot ⟨cs, hg, h⟩
    obtain ⟨pre, hpre⟩ := deletedOf_split (cur := cs) (a := a) hb hx
    have hmem : (⟨.delete, p, k, deletedOf cs (a ++ x :: b)⟩ : Change N) ∈ entityDiff g d pool root :=
      (entityDiff_mem g d pool hk root _).2 ⟨p, k, cs, hr, hg, .inr (.inr (by rw [snap hp hm]; exact mem_mkChange.2 ⟨by rw [hpre]; simp, rfl⟩))⟩
    obtain ⟨p', k', hadd⟩ := hadd
    obtain ⟨ch, hch, h1, h2, h3, h4⟩ := (changedAt_iff g d pool hk root .added p' k' x).2 hadd
    obtain ⟨i, hi⟩ := List.getElem?_of_mem (mem_sortChanges.2 hch)
    refine hlate _ (mem_sortChanges.2 hmem) rfl pre.length x ?_ (by simp [hpre]) i ⟨ch, hi, h4⟩ (by simp [RecTy, hi, h1, Way.ctype])
    simp only [hpre, List.length_append, List.length_cons]
    have h2 : 2 ≤ (b.dedup.filter fun c => decide (c ∉ cs)).length := by
      rw [two_le_iff ((List.nodup_dedup _).filter _)]
      intro hall
      exact hne (hall y (by simpa [hy] using fun h => hgy.2.2.2 ⟨cs, hg, h⟩) z (by simpa [hz] using fun h => hgz.2.2.2 ⟨cs, hg, h⟩))
    omega
  · intro hcond ch hch hdel j x hj hx i hi hnew
    obtain ⟨a0, ha0, hax⟩ := hi
    have hnew : a0.ctype = .new := by simpa [RecTy, ha0] using hnew
    have hadd : ∃ p' k', Added g.kids pool root p' k' x :=
      ⟨_, _, (changedAt_iff g d pool hk root .added a0.parent a0.key x).1 ⟨a0, mem_sortChanges.1 (List.mem_of_getElem? ha0), by simp [hnew, Way.ctype], rfl, rfl, hax⟩⟩
    have hch' := mem_sortChanges.1 hch
    have hndc := hnd ch hch'
    obtain ⟨p, k, cs, hr, hg, h⟩ := (entityDiff_mem g d pool hk root ch).1 hch'
    have hc : ch = ⟨.delete, p, k, deletedOf cs (snapKids pool p k)⟩ := by
      simp only [mem_mkChange] at h
      rcases h with ⟨_, rfl⟩ | ⟨_, rfl⟩ | ⟨_, h⟩
      · simp at hdel
      · simp at hdel
      · exact h
    subst hc
    simp only at hj hx hndc
    have hxm := mem_deletedOf.1 (List.mem_of_getElem? hx)
    have hhad := (mem_snapKids hk).1 hxm.1
    obtain ⟨fs, old, hp, hm, hxo⟩ := hhad
    rw [snap hp hm] at hj hx hndc hxm
    obtain ⟨a, b, rfl, hb⟩ : ∃ a b, old = a ++ x :: b ∧ x ∉ b := by
      have := List.eq_append_cons_of_mem (List.mem_reverse.2 hxo)
      obtain ⟨u, v, huv, hv⟩ := this
      refine ⟨v.reverse, u.reverse, ?_, by simpa using hv⟩
      have := congrArg List.reverse huv
      simpa using this
    obtain ⟨pre, hpre⟩ := deletedOf_split (cur := cs) (a := a) hb hxm.2
    rw [hpre] at hj hx hndc
    have hjp : j = pre.length := by
      have hx2 : (pre ++ x :: (b.dedup.filter fun c => decide (c ∉ cs)))[pre.length]? = some x := by simp
      rw [List.getElem?_eq_some_iff] at hx hx2
      obtain ⟨u1, u2⟩ := hx
      obtain ⟨v1, v2⟩ := hx2
      exact (List.Nodup.getElem_inj_iff hndc).1 (u2.trans v2.symm)
    subst hjp
    simp only [List.length_append, List.length_cons] at hj
    have h2 : 2 ≤ (b.dedup.filter fun c => decide (c ∉ cs)).length := by omega
    rw [two_le_iff ((List.nodup_dedup _).filter _)] at h2
    apply h2
    have gone_ : ∀ y ∈ a ++ x :: b, y ∉ cs → Gone g.kids pool root p k y := fun y hy hn =>
      ⟨hr, ⟨cs, hg⟩, ⟨fs, _, hp, hm, hy⟩, fun hh => hn ((has_iff_of_mem g hg y).1 hh)⟩
    intro y hy z hz
    simp only [List.mem_filter, List.mem_dedup, decide_eq_true_eq] at hy hz
    exact hcond p k fs a x b hp hm hb (gone_ x (by simp) hxm.2) hadd y hy.1 z hz.1 (gone_ y (by simp [hy.1]) hy.2) (gone_ z (by simp [hz.1]) hz.2)

end Ddd
