import Verif.Model.Snapshot
import Verif.Spec.Graph
import Mathlib.Data.List.Dedup
import Mathlib.Data.List.Induction
/-! Helper lemmas about `simpleSet`. -/
namespace Ddd
variable {N : Type} [DecidableEq N]

theorem SimpleSet.has_iff (s : SimpleSet N) (e : N) : s.has e = true ↔ e ∈ s.map Prod.fst := by
  simp [SimpleSet.has]

/-- the entries of `makeEntitySet`: last index of every element. -/
def dedupIdx : List N → Nat → List (N × Nat)
  | [], _ => []
  | a :: l, i => if a ∈ l then dedupIdx l (i + 1) else (a, i) :: dedupIdx l (i + 1)

theorem mem_dedupIdx_ge {l : List N} {i : Nat} {x : N × Nat} (h : x ∈ dedupIdx l i) : i ≤ x.2 := by
  induction l generalizing i with
  | nil => simp [dedupIdx] at h
  | cons a l ih =>
    simp only [dedupIdx] at h
    split at h
    · have := ih h; omega
    · rcases List.mem_cons.1 h with rfl | h
      · simp
      · have := ih h; omega

theorem dedupIdx_sorted (l : List N) (i : Nat) : (dedupIdx l i).Pairwise fun a b => a.2 < b.2 := by
  induction l generalizing i with
  | nil => simp [dedupIdx]
  | cons a l ih =>
    simp only [dedupIdx]
    split
    · exact ih _
    · refine List.pairwise_cons.2 ⟨fun x hx => ?_, ih _⟩
      have := mem_dedupIdx_ge hx
      simp only; omega

theorem dedupIdx_fst (l : List N) (i : Nat) : (dedupIdx l i).map Prod.fst = l.dedup := by
  induction l generalizing i with
  | nil => simp [dedupIdx]
  | cons a l ih =>
    simp only [dedupIdx]
    split
    · next h => rw [ih, List.dedup_cons_of_mem h]
    · next h => simp [ih, List.dedup_cons_of_notMem h]

theorem mem_dedupIdx (l : List N) (i : Nat) (n : N) (j : Nat) :
    (n, j) ∈ dedupIdx l i ↔ ∃ m, j = i + m ∧ l[m]? = some n ∧ ∀ m', m < m' → l[m']? ≠ some n := by
  induction l generalizing i with
  | nil => simp [dedupIdx]
  | cons a l ih =>
    simp only [dedupIdx]
    split
    · next h =>
      rw [ih]
      constructor
      · rintro ⟨m, rfl, h1, h2⟩
        refine ⟨m + 1, by omega, by simpa using h1, ?_⟩
        intro m' hm'
        obtain ⟨q, rfl⟩ : ∃ q, m' = q + 1 := ⟨m' - 1, by omega⟩
        simpa using h2 q (by omega)
      · rintro ⟨m, rfl, h1, h2⟩
        cases m with
        | zero =>
          exfalso
          simp only [List.getElem?_cons_zero, Option.some.injEq] at h1
          subst h1
          obtain ⟨q, hq, hq'⟩ := List.mem_iff_getElem.1 h
          apply h2 (q + 1) (by omega)
          simp [List.getElem?_eq_getElem hq, hq']
        | succ m =>
          refine ⟨m, by omega, by simpa using h1, ?_⟩
          intro m' hm'
          simpa using h2 (m' + 1) (by omega)
    · next h =>
      rw [List.mem_cons, ih]
      constructor
      · rintro (h' | ⟨m, rfl, h1, h2⟩)
        · simp only [Prod.mk.injEq] at h'
          obtain ⟨rfl, rfl⟩ := h'
          refine ⟨0, by omega, by simp, ?_⟩
          intro m' hm' hc
          obtain ⟨q, rfl⟩ : ∃ q, m' = q + 1 := ⟨m' - 1, by omega⟩
          simp only [List.getElem?_cons_succ] at hc
          exact h (List.mem_of_getElem? hc)
        · refine ⟨m + 1, by omega, by simpa using h1, ?_⟩
          intro m' hm'
          obtain ⟨q, rfl⟩ : ∃ q, m' = q + 1 := ⟨m' - 1, by omega⟩
          simpa using h2 q (by omega)
      · rintro ⟨m, rfl, h1, h2⟩
        cases m with
        | zero => left; simp at h1; simp [h1]
        | succ m =>
          right
          refine ⟨m, by omega, by simpa using h1, ?_⟩
          intro m' hm'
          simpa using h2 (m' + 1) (by omega)

theorem SimpleSet.put_nodup (s : SimpleSet N) (n : N) (i : Nat) (h : (s.map Prod.fst).Nodup) :
    ((s.put n i).map Prod.fst).Nodup := by
  unfold SimpleSet.put
  split
  · have : (s.map fun x => if x.1 = n then (n, i) else x).map Prod.fst = s.map Prod.fst := by
      rw [List.map_map]; apply List.map_congr_left; intro a _
      by_cases ha : a.1 = n <;> simp [ha]
    rw [this]; exact h
  · next hn =>
    rw [Bool.not_eq_true] at hn
    rw [List.map_append, List.nodup_append]
    refine ⟨h, by simp, ?_⟩
    intro a ha b hb hab
    subst hab
    simp only [List.map_cons, List.map_nil, List.mem_singleton] at hb
    rw [hb] at ha
    have := (SimpleSet.has_iff s n).2 ha
    simp [hn] at this

theorem SimpleSet.mem_put (s : SimpleSet N) (n : N) (i : Nat) (m : N) (j : Nat) :
    (m, j) ∈ s.put n i ↔ (m = n ∧ j = i) ∨ (m ≠ n ∧ (m, j) ∈ s) := by
  unfold SimpleSet.put
  split
  · next hn =>
    have hn' := (SimpleSet.has_iff s n).1 hn
    simp only [List.mem_map] at hn' ⊢
    constructor
    · rintro ⟨a, ha, h⟩
      split at h
      · left; simpa [eq_comm] using h
      · next hne => subst h; right; exact ⟨hne, ha⟩
    · rintro (⟨rfl, rfl⟩ | ⟨h1, h2⟩)
      · obtain ⟨a, ha, rfl⟩ := hn'
        exact ⟨a, ha, by simp⟩
      · exact ⟨_, h2, by simp [h1]⟩
  · next hn =>
    rw [List.mem_append]
    simp only [List.mem_singleton, Prod.mk.injEq]
    constructor
    · rintro (h | h)
      · by_cases hm : m = n
        · subst hm
          exact absurd ((SimpleSet.has_iff s m).2 (List.mem_map.2 ⟨_, h, rfl⟩)) hn
        · exact Or.inr ⟨hm, h⟩
      · exact Or.inl h
    · rintro (h | h)
      · exact Or.inr h
      · exact Or.inl h.2

theorem foldl_put_nodup (l : List (N × Nat)) (s : SimpleSet N) (h : (s.map Prod.fst).Nodup) :
    ((l.foldl (fun s x => s.put x.1 x.2) s).map Prod.fst).Nodup := by
  induction l generalizing s with
  | nil => exact h
  | cons a l ih => exact ih _ (SimpleSet.put_nodup _ _ _ h)

theorem makeEntitySet_nodup (l : List N) : ((makeEntitySet l).map Prod.fst).Nodup :=
  foldl_put_nodup _ _ (by simp)

theorem makeEntitySet_concat (l : List N) (a : N) :
    makeEntitySet (l ++ [a]) = (makeEntitySet l).put a l.length := by
  simp [makeEntitySet, List.zipIdx_append]

theorem mem_makeEntitySet (l : List N) (n : N) (j : Nat) :
    (n, j) ∈ makeEntitySet l ↔ l[j]? = some n ∧ ∀ m', j < m' → l[m']? ≠ some n := by
  induction l using List.reverseRecOn generalizing j with
  | nil => simp [makeEntitySet]
  | append_singleton l a ih =>
    rw [makeEntitySet_concat, SimpleSet.mem_put, ih]
    constructor
    · rintro (⟨rfl, rfl⟩ | ⟨h1, h2, h3⟩)
      · refine ⟨by simp, ?_⟩
        intro m' hm' h
        have := (List.getElem?_eq_some_iff.1 h).1
        simp at this; omega
      · have hj := (List.getElem?_eq_some_iff.1 h2).1
        refine ⟨by rw [List.getElem?_append_left hj]; exact h2, ?_⟩
        intro m' hm' h
        have := (List.getElem?_eq_some_iff.1 h).1
        simp at this
        by_cases hm : m' < l.length
        · rw [List.getElem?_append_left hm] at h; exact h3 m' hm' h
        · have : m' = l.length := by omega
          subst this
          simp at h; exact h1 h.symm
    · rintro ⟨h1, h2⟩
      have hj := (List.getElem?_eq_some_iff.1 h1).1
      simp at hj
      by_cases hm : j < l.length
      · rw [List.getElem?_append_left hm] at h1
        right
        refine ⟨?_, h1, ?_⟩
        · rintro rfl; exact h2 l.length hm (by simp)
        · intro m' hm' h
          refine h2 m' hm' ?_
          have := (List.getElem?_eq_some_iff.1 h).1
          rw [List.getElem?_append_left this]; exact h
      · have : j = l.length := by omega
        subst this
        simp at h1
        exact Or.inl ⟨h1.symm, rfl⟩

theorem makeEntitySet_perm (l : List N) : (makeEntitySet l).Perm (dedupIdx l 0) := by
  apply (List.perm_ext_iff_of_nodup ?_ ?_).2
  · rintro ⟨n, j⟩
    rw [mem_makeEntitySet, mem_dedupIdx]
    simp
  · exact List.Nodup.of_map _ (makeEntitySet_nodup l)
  · exact (dedupIdx_sorted l 0).imp (fun h h' => by subst h'; omega)

theorem makeEntitySet_has (l : List N) (n : N) : (makeEntitySet l).has n = decide (n ∈ l) := by
  rw [Bool.eq_iff_iff, SimpleSet.has_iff, (List.Perm.map Prod.fst (makeEntitySet_perm l)).mem_iff,
    dedupIdx_fst]
  simp

omit [DecidableEq N] in
/-- Go ranges over the map in any order: `ToSlice` gives the same list for every order of the entries. -/
theorem toSlice_perm (s t : SimpleSet N) (h : s.Perm t)
    (inj : ∀ a ∈ s, ∀ b ∈ s, a.2 = b.2 → a = b) : s.toSlice = t.toSlice := by
  unfold SimpleSet.toSlice
  congr 1
  have h1 := List.perm_insertionSort (fun a b : N × Nat => a.2 ≤ b.2) s
  have h2 := List.perm_insertionSort (fun a b : N × Nat => a.2 ≤ b.2) t
  refine List.Perm.eq_of_pairwise (le := fun a b : N × Nat => a.2 ≤ b.2) ?_ ?_ ?_ (h1.trans (h.trans h2.symm))
  · intro a b ha hb hab hba
    exact inj a (h1.mem_iff.1 ha) b (h.mem_iff.2 (h2.mem_iff.1 hb)) (by omega)
  · exact List.pairwise_insertionSort _ _
  · exact List.pairwise_insertionSort _ _

theorem toSlice_filter (l : List N) (p : N → Bool) :
    SimpleSet.toSlice ((makeEntitySet l).filter fun x => p x.1) = l.dedup.filter p := by
  have hperm : ((makeEntitySet l).filter fun x => p x.1).Perm ((dedupIdx l 0).filter fun x => p x.1) :=
    (makeEntitySet_perm l).filter _
  have hs : ((dedupIdx l 0).filter fun x => p x.1).Pairwise fun a b => a.2 ≤ b.2 :=
    ((dedupIdx_sorted l 0).imp (fun h => by omega)).sublist List.filter_sublist
  rw [toSlice_perm _ _ hperm]
  · unfold SimpleSet.toSlice
    rw [List.Pairwise.insertionSort_eq hs]
    rw [← dedupIdx_fst l 0, List.filter_map]
    rfl
  · rintro ⟨a, i⟩ ha ⟨b, j⟩ hb h
    have ha := List.mem_of_mem_filter ha
    have hb := List.mem_of_mem_filter hb
    rw [mem_makeEntitySet] at ha hb
    simp only at h; subst h
    have := ha.1.symm.trans hb.1
    simp at this; rw [this]

theorem createdOf_eq (cur old : List N) : createdOf cur old = cur.dedup.filter fun c => decide (c ∉ old) := by
  unfold createdOf SimpleSet.diff
  simp only [makeEntitySet_has]
  rw [toSlice_filter cur (fun x => !decide (x ∈ old))]
  simp

theorem remainOf_eq (cur old : List N) : remainOf cur old = cur.dedup.filter fun c => decide (c ∈ old) := by
  unfold remainOf SimpleSet.inter
  simp only [makeEntitySet_has]
  rw [toSlice_filter cur (fun x => decide (x ∈ old))]

theorem deletedOf_eq (cur old : List N) : deletedOf cur old = old.dedup.filter fun c => decide (c ∉ cur) := by
  unfold deletedOf SimpleSet.diff
  simp only [makeEntitySet_has]
  rw [toSlice_filter old (fun x => !decide (x ∈ cur))]
  simp

end Ddd
