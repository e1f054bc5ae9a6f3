import Verif.Spec.Children
import Verif.Proofs.Diff
/-!
# C59: child discovery
-/
set_option linter.unusedVariables false
set_option linter.unusedSimpArgs false
namespace Ddd.Children

variable {N : Type}

theorem elems_eq (l : List (Option N)) : elems l = none ↔ none ∈ l := by
  induction l with
  | nil => simp [elems]
  | cons x l ih =>
    cases x with
    | none => simp [elems]
    | some a =>
      simp only [elems, List.mapM_cons, id_eq, Option.bind_eq_bind, Option.bind_some, List.mem_cons, reduceCtorEq, false_or] at ih ⊢
      rw [← ih]
      cases h : List.mapM id l <;> simp [h]

theorem elems_some {l : List (Option N)} {r : List N} (h : elems l = some r) : l = r.map some := by
  induction l generalizing r with
  | nil => simp [elems] at h; simp [← h]
  | cons x l ih =>
    cases x with
    | none => simp [elems] at h
    | some a =>
      simp only [elems, List.mapM_cons, id_eq, Option.bind_eq_bind, Option.bind_some] at h ih
      cases hl : List.mapM id l with
      | none => simp [hl] at h
      | some r' =>
        simp [hl] at h
        simp [← h, ih hl]

/-- one field: panic, no group or its group -/
theorem fieldGroup_spec (f : Field N) (hf : Fits f) :
    (fieldGroup f = none ↔ f.bad) ∧
    (fieldGroup f = some none ↔ ¬(f.exported = true ∧ f.ty.holds)) ∧
    (∀ l, fieldGroup f = some (some l) → f.val.entities = l.map some) := by
  obtain ⟨name, ex, ⟨impl, base, shape⟩, val⟩ := f
  cases ex with
  | false => simp [fieldGroup, Field.bad]
  | true =>
    by_cases hi : impl = true ∧ base = false
    · obtain ⟨rfl, rfl⟩ := hi
      simp only [Fits, and_self, if_true] at hf
      cases shape <;> rcases hf with h | rfl | ⟨e, rfl⟩ <;> simp_all [fieldGroup, Field.bad, Ty.holds, Val.entities]
    · have hi' : (impl && !base) = false := by cases impl <;> cases base <;> simp_all
      simp only [Fits, if_neg hi] at hf
      cases shape with
      | slice b =>
        cases b with
        | false => cases impl <;> cases base <;> simp_all [fieldGroup, Field.bad, Ty.holds]
        | true =>
          rcases hf with rfl | ⟨l, rfl⟩
          · simp_all [fieldGroup, Field.bad, Ty.holds, Val.entities]
          · have he := elems_eq l
            cases hl : elems l with
            | none => simp_all [fieldGroup, Field.bad, Ty.holds, Val.entities]
            | some r => simp_all [fieldGroup, Field.bad, Ty.holds, Val.entities, elems_some hl]
      | map b =>
        cases b with
        | false => cases impl <;> cases base <;> simp_all [fieldGroup, Field.bad, Ty.holds]
        | true =>
          rcases hf with rfl | ⟨l, rfl⟩
          · simp_all [fieldGroup, Field.bad, Ty.holds, Val.entities]
          · have he := elems_eq l
            cases hl : elems l with
            | none => simp_all [fieldGroup, Field.bad, Ty.holds, Val.entities]
            | some r => simp_all [fieldGroup, Field.bad, Ty.holds, Val.entities, elems_some hl]
      | _ => cases impl <;> cases base <;> simp_all [fieldGroup, Field.bad, Ty.holds]

theorem collect_spec (fs : List (Field N)) : ∀ (acc : List (Key × List N)), (∀ f ∈ fs, Fits f) → ((fs.filter (·.exported)).map Field.name).Nodup →
    (∀ f ∈ fs, f.exported = true → f.name ∉ acc.map Prod.fst) →
    ((∃ f ∈ fs, f.bad) ↔ collect acc fs = none) ∧
    ∀ r, collect acc fs = some r → ∀ k l, (k, l) ∈ r ↔ (k, l) ∈ acc ∨ ∃ f ∈ fs, f.exported = true ∧ f.ty.holds ∧ f.name = k ∧ f.val.entities = l.map some := by
  induction fs with
  | nil => intro acc _ _ _; simp [collect]
  | cons f fs ih =>
    intro acc hfit hn hacc
    have hrest := fun a h => ih a (fun x hx => hfit x (by simp [hx])) (by
      cases he : f.exported <;> simp_all) h
    obtain ⟨h1, h2, h3⟩ := fieldGroup_spec f (hfit f (by simp))
    have hskip : ¬f.exported = true → collect acc (f :: fs) = collect acc fs := by
      intro he
      have : fieldGroup f = some none := h2.mpr (fun hh => he hh.1)
      simp only [collect, this]
      split <;> rfl
    by_cases he : f.exported = true
    · have hnotin := hacc f (by simp) he
      have hacc' : ∀ x ∈ fs, x.exported = true → x.name ∉ acc.map Prod.fst := fun x hx => hacc x (by simp [hx])
      have hname : ∀ x ∈ fs, x.exported = true → x.name ≠ f.name := by
        intro x hx hxe heq
        simp only [List.filter_cons, he, if_true, List.map_cons, List.nodup_cons] at hn
        exact hn.1 (List.mem_map.mpr ⟨x, List.mem_filter.mpr ⟨hx, hxe⟩, heq⟩)
      simp only [collect, if_neg hnotin]
      cases hg : fieldGroup f with
      | none =>
        have hb := h1.mp hg
        simp only [true_iff, iff_true, reduceCtorEq, false_imp_iff, implies_true, and_true]
        exact ⟨f, by simp, hb⟩
      | some o =>
        have hnb : ¬f.bad := fun hb => by rw [h1.mpr hb] at hg; cases hg
        cases o with
        | none =>
          obtain ⟨i1, i2⟩ := hrest acc hacc'
          have hnh := h2.mp hg
          simp only
          refine ⟨by rw [← i1]; simp [hnb], fun r hr k l => ?_⟩
          rw [i2 r hr k l]
          simp only [List.mem_cons, exists_eq_or_imp]
          constructor
          · rintro (h | h)
            · exact .inl h
            · exact .inr (.inr h)
          · rintro (h | h | h)
            · exact .inl h
            · exact absurd ⟨h.1, h.2.1⟩ hnh
            · exact .inr h
        | some l0 =>
          have hh : f.exported = true ∧ f.ty.holds := by
            by_contra hc
            rw [h2.mpr hc] at hg; cases hg
          obtain ⟨i1, i2⟩ := hrest (acc ++ [(f.name, l0)]) (by
            intro x hx hxe
            simp only [List.map_append, List.map_cons, List.map_nil, List.mem_append, List.mem_singleton, not_or]
            exact ⟨hacc' x hx hxe, hname x hx hxe⟩)
          simp only
          refine ⟨by rw [← i1]; simp [hnb], fun r hr k l => ?_⟩
          rw [i2 r hr k l]
          simp only [List.mem_append, List.mem_cons, List.not_mem_nil, or_false, Prod.mk.injEq, exists_eq_or_imp]
          have hl0 := h3 l0 hg
          constructor
          · intro hor
            rcases hor with hor | hb
            · rcases hor with ha | hk
              · exact .inl ha
              · exact .inr (.inl ⟨hh.1, hh.2, hk.1.symm, (by rw [hk.2]; exact hl0)⟩)
            · exact .inr (.inr hb)
          · rintro (h | ⟨_, _, rfl, hl⟩ | h)
            · exact .inl (.inl h)
            · refine .inl (.inr ⟨rfl, ?_⟩)
              rw [hl0] at hl
              exact (List.map_injective_iff.mpr (Option.some_injective _) hl).symm
            · exact .inr h
    · obtain ⟨i1, i2⟩ := hrest acc (fun x hx => hacc x (by simp [hx]))
      rw [hskip he]
      refine ⟨?_, fun r hr k l => ?_⟩
      · rw [← i1]
        have : ¬f.bad := fun hb => he hb.1
        simp [this]
      · rw [i2 r hr k l]; simp [he]

/-- C59: an entity that defines `GetChildren` (and does not return nil) has exactly these children. -/
theorem C59_own (o : Obj N) (c : List (Key × List N)) (h : o.own = some c) : findChildren o = some c := by simp [findChildren, h]

/-- C59: otherwise the child groups are exactly the exported fields whose type is an entity, a slice of entities or a map of entities (whatever their value: nil and empty ones are groups without elements),
with all their elements; every other field is ignored. -/
theorem C59_groups (o : Obj N) (fs : List (Field N)) (h0 : o.own = none) (h1 : o.fields = some fs) (hl : Layout fs) (kids : List (Key × List N)) (h : findChildren o = some kids)
    (k : Key) (l : List N) : (k, l) ∈ kids ↔ ∃ f ∈ fs, f.exported = true ∧ f.ty.holds ∧ f.name = k ∧ f.val.entities = l.map some := by
  simp only [findChildren, h0, h1] at h
  have := (collect_spec fs [] hl.fits hl.names (by simp)).2 kids h k l
  simpa using this

/-- C59: the discovery panics exactly when a field is a struct that implements the interface by value, or a list contains a nil interface. -/
theorem C59_panics_iff (o : Obj N) (fs : List (Field N)) (h0 : o.own = none) (h1 : o.fields = some fs) (hl : Layout fs) : findChildren o = none ↔ ∃ f ∈ fs, f.bad := by
  simp only [findChildren, h0, h1]
  exact (collect_spec fs [] hl.fits hl.names (by simp)).1.symm

theorem entities_some (f : Field N) (hb : ¬f.bad) (he : f.exported = true) (hh : f.ty.holds) : ∃ l : List N, f.val.entities = l.map some := by
  have : none ∉ f.val.entities := fun hm => hb ⟨he, .inr ⟨hh, hm⟩⟩
  generalize f.val.entities = L at this
  induction L with
  | nil => exact ⟨[], rfl⟩
  | cons x L ih =>
    cases x with
    | none => simp at this
    | some a =>
      obtain ⟨l, hl⟩ := ih (fun h => this (by simp [h]))
      exact ⟨a :: l, by simp [hl]⟩

/-- C59: which fields are groups depends only on the type of the entity, not on what the fields hold. -/
theorem C59_keys_by_type (o : Obj N) (fs : List (Field N)) (h0 : o.own = none) (h1 : o.fields = some fs) (hl : Layout fs) (kids : List (Key × List N)) (h : findChildren o = some kids)
    (k : Key) : k ∈ kids.map Prod.fst ↔ ∃ f ∈ fs, f.exported = true ∧ f.ty.holds ∧ f.name = k := by
  have hg := C59_groups o fs h0 h1 hl kids h
  have hnb : ∀ f ∈ fs, ¬f.bad := by
    intro f hf hb
    rw [(C59_panics_iff o fs h0 h1 hl).mpr ⟨f, hf, hb⟩] at h; cases h
  constructor
  · intro hk
    obtain ⟨⟨k', l⟩, hm, rfl⟩ := List.mem_map.mp hk
    obtain ⟨f, hf, h1, h2, h3, _⟩ := (hg k' l).mp hm
    exact ⟨f, hf, h1, h2, h3⟩
  · rintro ⟨f, hf, he, hh, rfl⟩
    obtain ⟨l, hl'⟩ := entities_some f (hnb f hf) he hh
    exact List.mem_map.mpr ⟨(f.name, l), (hg _ _).mpr ⟨f, hf, he, hh, rfl, hl'⟩, rfl⟩

theorem collect_keys (fs : List (Field N)) : ∀ (acc r : List (Key × List N)), (acc.map Prod.fst).Nodup → collect acc fs = some r → (r.map Prod.fst).Nodup := by
  induction fs with
  | nil => intro acc r h hr; simp only [collect, Option.some.injEq] at hr; rw [← hr]; exact h
  | cons f fs ih =>
    intro acc r h hr
    simp only [collect] at hr
    split at hr
    · exact ih acc r h hr
    · rename_i hn
      cases hg : fieldGroup f with
      | none => simp [hg] at hr
      | some o =>
        cases o with
        | none => simp only [hg] at hr; exact ih acc r h hr
        | some l =>
          simp only [hg] at hr
          refine ih _ r ?_ hr
          rw [List.map_append, List.nodup_append]
          refine ⟨h, by simp, ?_⟩
          intro a ha b hb
          simp only [List.map_cons, List.map_nil, List.mem_singleton] at hb
          rintro rfl
          exact hn (hb ▸ ha)

/-- C59: every group is there once, for any struct. -/
theorem C59_keys_once (o : Obj N) (h0 : o.own = none) (kids : List (Key × List N)) (h : findChildren o = some kids) : (kids.map Prod.fst).Nodup := by
  simp only [findChildren, h0] at h
  split at h
  · simp only [Option.some.injEq] at h; rw [← h]; simp
  · exact collect_keys _ [] kids (by simp) h

/-! ## emptying a field is a deletion -/

variable [DecidableEq N]

open Spec

/-- C59: when an entity of the aggregate found its children by reflection when it was recorded and now, then every child that was recorded in a field and is not there any more (also when the field is now nil or empty) is found as
deleted from this parent and field. -/
theorem C59_emptied_is_deleted (g : Graph N) (d : N → Bool) (pool : KidPool N) (hk : pool.Keys) (root p : N) (hr : Reach g.kids root p)
    (o : Obj N) (fs : List (Field N)) (h0 : o.own = none) (h1 : o.fields = some fs) (hl : Layout fs) (hnow : findChildren o = some (g.kids p))
    (f : Field N) (hf : f ∈ fs) (he : f.exported = true) (hh : f.ty.holds) (c : N) (hhad : Had pool p f.name c) (hgone : some c ∉ f.val.entities) :
    ∃ ch ∈ entityDiff g d pool root, ch.ctype = .delete ∧ ch.parent = p ∧ ch.key = f.name ∧ c ∈ ch.children := by
  apply (entityDiff_char g d pool hk root .delete p f.name c).mpr
  refine ⟨hr, ?_⟩
  have hkey := (C59_keys_by_type o fs h0 h1 hl _ hnow f.name).mpr ⟨f, hf, he, hh, rfl⟩
  obtain ⟨⟨k, l⟩, hm, hkl⟩ := List.mem_map.mp hkey
  simp only at hkl; subst hkl
  refine ⟨hhad, ⟨l, hm⟩, ?_⟩
  rintro ⟨l', hm', hc⟩
  obtain ⟨f', hf', he', _, hn', hent⟩ := (C59_groups o fs h0 h1 hl _ hnow f.name l').mp hm'
  have : f' = f := by
    have hinj := List.inj_on_of_nodup_map hl.names
    exact hinj (List.mem_filter.mpr ⟨hf', he'⟩) (List.mem_filter.mpr ⟨hf, he⟩) hn'
  subst this
  rw [hent] at hgone
  exact hgone (List.mem_map.mpr ⟨c, hc, rfl⟩)

/-- An entity with its own `GetChildren` that leaves a group out when it is empty: no child of the group is ever found as deleted. -/
theorem C59_own_must_list (g : Graph N) (d : N → Bool) (pool : KidPool N) (hk : pool.Keys) (root p : N) (k : Key) (hno : k ∉ (g.kids p).map Prod.fst) :
    ¬∃ ch ∈ entityDiff g d pool root, ch.ctype = .delete ∧ ch.parent = p ∧ ch.key = k := by
  rintro ⟨ch, hch, ht, rfl, rfl⟩
  obtain ⟨hne, _⟩ := entityDiff_children g d pool hk root ch hch
  obtain ⟨c, hc⟩ := List.exists_mem_of_ne_nil _ hne
  have := (entityDiff_char g d pool hk root .delete ch.parent ch.key c).mp ⟨ch, hch, ht, rfl, rfl, hc⟩
  obtain ⟨cs, hcs⟩ := this.2.2.1
  exact hno (List.mem_map.mpr ⟨(ch.key, cs), hcs, rfl⟩)

/-! ## cases -/

/-- types: pointer to an entity, `*BaseEntity`, slice and map of entities, a struct embedded by value, a struct that implements the interface by value -/
def tPtr : Ty := ⟨true, false, .ref⟩
def tBase : Ty := ⟨true, true, .ref⟩
def tSlice : Ty := ⟨false, false, .slice true⟩
def tMap : Ty := ⟨false, false, .map true⟩
def tStruct : Ty := ⟨false, false, .other⟩
def tValue : Ty := ⟨true, false, .other⟩

/-- an order: embedded base, an unexported child, a nil customer, two items, a map, an embedded struct with children in it (not found), a slice of slices -/
def demoFields : List (Field Nat) :=
  [⟨1, true, tBase, .ent 9⟩, ⟨2, false, tPtr, .ent 8⟩, ⟨3, true, tPtr, .nil⟩, ⟨4, true, tSlice, .elems [some 5, some 6]⟩, ⟨5, true, tMap, .entries [some 7]⟩,
   ⟨6, true, tStruct, .other⟩, ⟨7, true, ⟨false, false, .slice false⟩, .other⟩, ⟨8, true, tSlice, .nil⟩]

theorem demo_layout : Layout demoFields := by
  refine ⟨by decide, ?_⟩
  intro f hf
  simp [demoFields] at hf
  rcases hf with rfl | rfl | rfl | rfl | rfl | rfl | rfl | rfl <;> simp [Fits, tBase, tPtr, tSlice, tMap, tStruct]

example : findChildren ⟨none, some demoFields⟩ = some [(3, []), (4, [5, 6]), (5, [7]), (8, [])] := by decide +kernel

example : ∃ f ∈ demoFields, f.exported = true ∧ f.ty.holds ∧ f.name = 3 ∧ f.val.entities = ([] : List Nat).map some :=
  (C59_groups ⟨none, some demoFields⟩ demoFields rfl rfl demo_layout [(3, []), (4, [5, 6]), (5, [7]), (8, [])] (by decide +kernel) 3 []).mp (by decide)

/-- a nil interface in a slice, a struct by value: panic -/
example : findChildren ⟨none, some [⟨1, true, tSlice, .elems [some 5, (none : Option Nat)]⟩]⟩ = none := by decide +kernel
example : findChildren ⟨none, some [⟨1, true, tValue, (.other : Val Nat)⟩]⟩ = none := by decide +kernel

end Ddd.Children
