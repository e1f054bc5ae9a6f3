import Verif.Props.InsertOrder
set_option linter.unusedVariables false
set_option linter.unusedSimpArgs false
/-!
# C131: unique columns while a save is written
-/
namespace Ddd
open Spec

/-! ## Specification -/

/-- no two rows of a table have the same value in the unique column `uk` (`none`: NULL) -/
def UniqueCol (uk : Model → Option Nat) (st : Store) : Prop :=
  ∀ k k' m m' v, st k = some m → st k' = some m' → k.1 = k'.1 → uk m = some v → uk m' = some v → k = k'

/-- `st1`: the store after some of the rows of the batches `w` were written, in order, one by one -/
def Midway (w : List Action) (st st1 : Store) : Prop :=
  ∃ l1 l2 : List (Op × Model), (w.flatMap fun a => a.models.map fun m => (a.op, m)) = l1 ++ l2 ∧ l1.foldlM (fun st x => Store.put x.1 st x.2) st = some st1

/-! ## Lemmas -/

/-- every row of the store after writing was there before or was written by an insert or update -/
theorem midway_rows (l : List (Op × Model)) : ∀ (st st1 : Store), l.foldlM (fun st x => Store.put x.1 st x.2) st = some st1 →
    ∀ k m, st1 k = some m → st k = some m ∨ ∃ x ∈ l, (x.1 = .insert ∨ x.1 = .update) ∧ x.2 = m ∧ k = m.key := by
  induction l with
  | nil => intro st st1 h k m hk; simp only [List.foldlM_nil, Option.pure_def, Option.some.injEq] at h; subst h; exact .inl hk
  | cons x l ih =>
    intro st st1 h k m hk
    rw [List.foldlM_cons] at h
    obtain ⟨st2, h1, h2⟩ := Option.bind_eq_some_iff.1 h
    rcases ih st2 st1 h2 k m hk with h3 | ⟨y, hy, h3⟩
    · by_cases hkx : k = x.2.key
      · subst hkx
        have hp := (put_self h1).1
        obtain ⟨op, mx⟩ := x
        rw [h3] at hp
        cases op with
        | insert =>
          simp only [effect, Option.some.injEq] at hp
          subst hp
          exact .inr ⟨_, List.mem_cons_self, .inl rfl, rfl, rfl⟩
        | update =>
          simp only [effect] at hp
          cases ho : st mx.key with
          | none => rw [ho] at hp; cases hp
          | some m0 =>
            rw [ho] at hp
            simp only [Option.map_some, Option.some.injEq] at hp
            subst hp
            exact .inr ⟨_, List.mem_cons_self, .inr rfl, rfl, rfl⟩
        | delete => simp only [effect] at hp; cases hp
        | query => simp only [effect] at hp; exact .inl hp.symm
      · rw [put_other h1 hkx] at h3; exact .inl h3
    · exact .inr ⟨y, List.mem_cons_of_mem _ hy, h3⟩

theorem rows_of_batches (es : List Entry) {x : Op × Model} (h : x ∈ (batches es).flatMap fun a => a.models.map fun m => (a.op, m)) : ∃ e ∈ es, x = (e.op, e.model) := by
  obtain ⟨a, ha, hx⟩ := List.mem_flatMap.1 h
  obtain ⟨m, hm, rfl⟩ := List.mem_map.1 hx
  unfold batches at ha
  obtain ⟨op, _, ha⟩ := List.mem_flatMap.1 ha
  obtain ⟨t, _, rfl⟩ := List.mem_map.1 ha
  simp only [batch, List.mem_map, List.mem_filter, decide_eq_true_eq] at hm
  obtain ⟨e, ⟨he, h1, _⟩, rfl⟩ := hm
  exact ⟨e, he, by rw [← h1]; rfl⟩

variable (env : Env) (opts : Opts)

/-! ## Theorems -/

/-- **C131** If no inserted or updated row has a value that another stored row of the table has before the save, nor one that another inserted or updated row has, then no two rows of a table have the same value at any moment while the
save is written. Missing for the full property: values that are freed by the same save (`C131_replacement_fails`, `C131_swap_fails`). -/
theorem C131_unique_kept_partial {s s' : St} (h : persist env opts s = (.ok (), s')) (hd : opts.dryRun = false) :
    ∃ (t : Trace) (rs : List (Option Model)) (h2 : Heap), s'.trace = s.trace ++ t ∧ List.Forall₂ (Answered env h2) (asked t) rs ∧
      ∀ (uk : Model → Option Nat) (st : Store), UniqueCol uk st →
        (∀ j m k m' v, (j, some m) ∈ (asked t).zip rs → (j.op = .insert ∨ j.op = .update) → st k = some m' → k.1 = m.typ → uk m = some v → uk m' = some v → k = m.key) →
        (∀ j m j' m' v, (j, some m) ∈ (asked t).zip rs → (j', some m') ∈ (asked t).zip rs → (j.op = .insert ∨ j.op = .update) → (j'.op = .insert ∨ j'.op = .update) → m.typ = m'.typ →
          uk m = some v → uk m' = some v → m.key = m'.key) →
        ∀ st1, Midway (written t) st st1 → UniqueCol uk st1 := by
  obtain ⟨cs, t, rs, h2, hc, ht, ha, hans, hw⟩ := save_answers env opts h hd
  refine ⟨t, rs, h2, ht, hans, ?_⟩
  intro uk st hu hold hnew st1 ⟨l1, l2, hl, hf⟩
  rw [hw] at hl
  have row : ∀ k m, st1 k = some m → st k = some m ∨ ∃ j, (j, some m) ∈ (asked t).zip rs ∧ (j.op = .insert ∨ j.op = .update) ∧ k = m.key := by
    intro k m hk
    rcases midway_rows l1 st st1 hf k m hk with h1 | ⟨x, hx, hop, rfl, hkey⟩
    · exact .inl h1
    · obtain ⟨e, he, rfl⟩ := rows_of_batches _ (by rw [hl]; exact List.mem_append_left _ hx)
      rw [entries_rows] at he
      obtain ⟨⟨j, m⟩, hjm, rfl⟩ := List.mem_map.1 he
      rw [ha]
      exact .inr ⟨j, mem_insRows.1 hjm, hop, hkey⟩
  intro k k' m m' v hk hk' hkk hv hv'
  rcases row k m hk with h1 | ⟨j, hj, ho, rfl⟩ <;> rcases row k' m' hk' with h1' | ⟨j', hj', ho', rfl⟩
  · exact hu k k' m m' v h1 h1' hkk hv hv'
  · exact hold j' m' k m v hj' ho' h1 hkk hv' hv
  · exact (hold j m k' m' v hj ho h1' hkk.symm hv hv').symm
  · exact hnew j m j' m' v hj hj' ho ho' hkk hv hv'

/-- **C131** In particular: if updates leave the unique values of their rows as they are stored, and new rows bring values that are neither stored nor brought by another new row, then no two rows of a table have the same
value at any moment while the save is written. -/
theorem C131_unchanged_values_partial {s s' : St} (h : persist env opts s = (.ok (), s')) (hd : opts.dryRun = false) :
    ∃ (t : Trace) (rs : List (Option Model)) (h2 : Heap), s'.trace = s.trace ++ t ∧ List.Forall₂ (Answered env h2) (asked t) rs ∧
      ∀ (uk : Model → Option Nat) (st : Store), UniqueCol uk st →
        (∀ j m, (j, some m) ∈ (asked t).zip rs → j.op = .update → ∃ m0, st m.key = some m0 ∧ uk m0 = uk m) →
        (∀ j m k m' v, (j, some m) ∈ (asked t).zip rs → j.op = .insert → uk m = some v → st k = some m' → k.1 = m.typ → uk m' ≠ some v) →
        (∀ j m j' m' v, (j, some m) ∈ (asked t).zip rs → (j', some m') ∈ (asked t).zip rs → j.op = .insert → j'.op = .insert → m.typ = m'.typ → uk m = some v → uk m' = some v → m.key = m'.key) →
        ∀ st1, Midway (written t) st st1 → UniqueCol uk st1 := by
  obtain ⟨t, rs, h2, ht, hans, H⟩ := C131_unique_kept_partial env opts h hd
  refine ⟨t, rs, h2, ht, hans, fun uk st hu hup hin hii => H uk st hu ?_ ?_⟩
  · intro j m k m' v hj ho hk hkt hv hv'
    rcases ho with ho | ho
    · exact absurd hv' (hin j m k m' v hj ho hv hk hkt)
    · obtain ⟨m0, h0, he⟩ := hup j m hj ho
      exact hu k m.key m' m0 v hk h0 hkt hv' (he.trans hv)
  · intro j m j' m' v hj hj' ho ho' htt hv hv'
    rcases ho with ho | ho <;> rcases ho' with ho' | ho'
    · exact hii j m j' m' v hj hj' ho ho' htt hv hv'
    · obtain ⟨m0, h0, he⟩ := hup j' m' hj' ho'
      exact absurd (he.trans hv') (hin j m m'.key m0 v hj ho hv h0 htt.symm)
    · obtain ⟨m0, h0, he⟩ := hup j m hj ho
      exact absurd (he.trans hv) (hin j' m' m.key m0 v hj' ho' hv' h0 htt)
    · obtain ⟨m0, h0, he⟩ := hup j m hj ho
      obtain ⟨m0', h0', he'⟩ := hup j' m' hj' ho'
      exact hu m.key m'.key m0 m0' v h0 h0' htt (he.trans hv) (he'.trans hv')

/-! ## Concrete cases -/

namespace Demo
/-- the unique column of the demo is the data column -/
def dataCol (m : Model) : Option Nat := if m.data = 0 then none else some m.data

/-- order 10 with items 1, 2, 3 whose data are 1, 2, 3 -/
def codedStored : Store := fun k => if k = (1, 10) then some ⟨1, 10, 0, 0⟩ else if k.1 = 1 ∧ (k.2 = 1 ∨ k.2 = 2 ∨ k.2 = 3) then some ⟨1, k.2, 10, k.2⟩ else none

def codedRecorded (n : Node) : Option Snap :=
  match n with
  | none => some ⟨none, [(0, [some 10])], by simp⟩
  | some 10 => some ⟨some ⟨1, 10, 0, 0⟩, [(1, [some 1, some 2, some 3]), (2, [])], by simp⟩
  | some 1 => some ⟨some ⟨1, 1, 10, 1⟩, [], by simp⟩
  | some 2 => some ⟨some ⟨1, 2, 10, 2⟩, [], by simp⟩
  | some 3 => some ⟨some ⟨1, 3, 10, 3⟩, [], by simp⟩
  | some _ => none

def codedSt (f : List Ptr) (data : Ptr → Nat) (dirty : List Ptr) (h : ∀ c ∈ f, c < 10) : St :=
  { heap := heapOf [(10, [(1, f), (2, [])])] (fun p => { stdAttr p with data := data p, dirty := decide (p ∈ dirty) })
      (by
        intro x hx g hg c hc
        simp only [List.mem_singleton] at hx
        subst hx
        simp only [List.mem_cons, List.not_mem_nil, or_false] at hg
        rcases hg with rfl | rfl
        · exact h c hc
        · simp at hc) (by simp),
    roots := [10], deleted := [], snap := codedRecorded, errs := [], actions := [], output := 0,
    eventCtx := false, trace := [] }

/-- item 3 is replaced by the new item 5 with the data of 3 -/
def replaced : St := codedSt [1, 2, 5] (fun p => if p = 5 then 3 else if p = 10 then 0 else p) [] (by decide)
/-- item 3 is replaced by the new item 5 with data of its own -/
def freshCode : St := codedSt [1, 2, 5] (fun p => if p = 10 then 0 else p) [] (by decide)
/-- item 3 is replaced by the new item 5 with data of its own, item 2 is written again -/
def touched : St := codedSt [1, 2, 5] (fun p => if p = 10 then 0 else p) [2] (by decide)
/-- items 1 and 2 exchange their data -/
def swapped : St := codedSt [1, 2, 3] (fun p => if p = 1 then 2 else if p = 2 then 1 else if p = 10 then 0 else p) [1, 2] (by decide)

theorem coded_key {k : Nat × Nat} {m : Model} {v : Nat} (hk : codedStored k = some m) (hv : dataCol m = some v) : k = (1, v) := by
  unfold codedStored at hk
  split at hk
  · simp only [Option.some.injEq] at hk; subst hk; simp [dataCol] at hv
  · split at hk
    · rename_i h
      simp only [Option.some.injEq] at hk
      subst hk
      simp only [dataCol] at hv
      split at hv
      · cases hv
      · simp only [Option.some.injEq] at hv
        obtain ⟨a, b⟩ := k
        simp only at h hv
        rw [h.1, hv]
    · cases hk

theorem coded_unique : UniqueCol dataCol codedStored := by
  intro k k' m m' v h1 h2 _ hv hv'
  rw [coded_key h1 hv, coded_key h2 hv']
end Demo

open Demo in
/-- the hypotheses of `C131_unique_kept_partial` are met when item 3 is replaced by an item with data of its own -/
example : (persist okEnv stdOpts freshCode).1.isOk = true ∧ UniqueCol dataCol codedStored ∧
    ∃ (js : List Job) (rs : List (Option Model)), asked (persist okEnv stdOpts freshCode).2.trace = js ∧
      js.map (fun j => match stdConv freshCode.heap j.node (some j.parent) with | .ok m => some m | _ => none) = rs ∧
      (∀ j m k m' v, (j, some m) ∈ js.zip rs → (j.op = .insert ∨ j.op = .update) → codedStored k = some m' → k.1 = m.typ → dataCol m = some v → dataCol m' = some v → k = m.key) ∧
      ∀ j m j' m' v, (j, some m) ∈ js.zip rs → (j', some m') ∈ js.zip rs → (j.op = .insert ∨ j.op = .update) → (j'.op = .insert ∨ j'.op = .update) → m.typ = m'.typ →
          dataCol m = some v → dataCol m' = some v → m.key = m'.key := by
  refine ⟨by decide +kernel, coded_unique, [⟨some 5, some 10, .insert⟩, ⟨some 3, some 10, .delete⟩], [some ⟨1, 5, 10, 5⟩, some ⟨1, 3, 10, 3⟩], by decide +kernel, by decide +kernel, ?_, ?_⟩
  · intro j m k m' v hj ho hk _ hv hv'
    have := coded_key hk hv'
    simp only [List.zip_cons_cons, List.zip_nil_right, List.mem_cons, Prod.mk.injEq, Option.some.injEq, List.not_mem_nil, or_false] at hj
    rcases hj with ⟨rfl, rfl⟩ | ⟨rfl, rfl⟩
    · simp only [dataCol, Nat.reduceEqDiff, if_false, Option.some.injEq] at hv
      subst hv; exact this
    · simp at ho
  · intro j m j' m' v hj hj' ho ho' _ _ _
    simp only [List.zip_cons_cons, List.zip_nil_right, List.mem_cons, Prod.mk.injEq, Option.some.injEq, List.not_mem_nil, or_false] at hj hj'
    rcases hj with ⟨rfl, rfl⟩ | ⟨rfl, rfl⟩
    · rcases hj' with ⟨rfl, rfl⟩ | ⟨rfl, rfl⟩
      · rfl
      · simp at ho'
    · simp at ho

open Demo in
/-- the hypotheses of `C131_unchanged_values_partial` are met when, besides, item 2 is updated with its value -/
example : (persist okEnv stdOpts touched).1.isOk = true ∧ UniqueCol dataCol codedStored ∧
    ∃ (js : List Job) (rs : List (Option Model)), asked (persist okEnv stdOpts touched).2.trace = js ∧
      js.map (fun j => match stdConv touched.heap j.node (some j.parent) with | .ok m => some m | _ => none) = rs ∧ (∃ j ∈ js, j.op = .update) ∧ (∃ j ∈ js, j.op = .insert) ∧
      (∀ j m, (j, some m) ∈ js.zip rs → j.op = .update → ∃ m0, codedStored m.key = some m0 ∧ dataCol m0 = dataCol m) ∧
      (∀ j m k m' v, (j, some m) ∈ js.zip rs → j.op = .insert → dataCol m = some v → codedStored k = some m' → k.1 = m.typ → dataCol m' ≠ some v) ∧
      ∀ j m j' m' v, (j, some m) ∈ js.zip rs → (j', some m') ∈ js.zip rs → j.op = .insert → j'.op = .insert → m.typ = m'.typ → dataCol m = some v → dataCol m' = some v → m.key = m'.key := by
  refine ⟨by decide +kernel, coded_unique, asked (persist okEnv stdOpts touched).2.trace, [some ⟨1, 5, 10, 5⟩, some ⟨1, 2, 10, 2⟩, some ⟨1, 3, 10, 3⟩], rfl, by decide +kernel, by decide +kernel, by decide +kernel, ?_⟩
  rw [show asked (persist okEnv stdOpts touched).2.trace = [⟨some 5, some 10, .insert⟩, ⟨some 2, some 10, .update⟩, ⟨some 3, some 10, .delete⟩] by decide +kernel]
  simp only [List.zip_cons_cons, List.zip_nil_right, List.mem_cons, Prod.mk.injEq, Option.some.injEq, List.not_mem_nil, or_false]
  refine ⟨?_, ?_, ?_⟩
  · rintro j m (⟨rfl, rfl⟩ | ⟨rfl, rfl⟩ | ⟨rfl, rfl⟩) ho
    · simp at ho
    · exact ⟨⟨1, 2, 10, 2⟩, rfl, rfl⟩
    · simp at ho
  · rintro j m k m' v (⟨rfl, rfl⟩ | ⟨rfl, rfl⟩ | ⟨rfl, rfl⟩) ho hv hk _ hv'
    · have hkk := coded_key hk hv'
      simp only [dataCol, Nat.reduceEqDiff, if_false, Option.some.injEq] at hv
      subst hv
      subst hkk
      simp [codedStored] at hk
    · simp at ho
    · simp at ho
  · rintro j m j' m' v (⟨rfl, rfl⟩ | ⟨rfl, rfl⟩ | ⟨rfl, rfl⟩) (⟨rfl, rfl⟩ | ⟨rfl, rfl⟩ | ⟨rfl, rfl⟩) ho ho' _ _ _ <;> first | rfl | exact absurd ho (by decide) | exact absurd ho' (by decide)

open Demo in
/-- **C131 is false in general**: item 3 is removed and the new item 5 has its value. Before and after the save the values are unique, but the new row is written before the old one is deleted. -/
theorem C131_replacement_fails : (persist okEnv stdOpts replaced).1.isOk = true ∧ UniqueCol dataCol codedStored ∧
    (∃ st1, Midway (written (persist okEnv stdOpts replaced).2.trace) codedStored st1 ∧ ¬ UniqueCol dataCol st1) ∧
    ∃ st', codedStored.applyAll (written (persist okEnv stdOpts replaced).2.trace) = some st' ∧ UniqueCol dataCol st' := by
  have hw : written (persist okEnv stdOpts replaced).2.trace = [⟨.insert, [⟨1, 5, 10, 3⟩], []⟩, ⟨.delete, [⟨1, 3, 10, 3⟩], []⟩] := by decide +kernel
  refine ⟨by decide +kernel, coded_unique, ⟨codedStored.set (1, 5) (some ⟨1, 5, 10, 3⟩), ?_, ?_⟩, (codedStored.set (1, 5) (some ⟨1, 5, 10, 3⟩)).set (1, 3) none, ?_, ?_⟩
  · rw [hw]; exact ⟨[(.insert, ⟨1, 5, 10, 3⟩)], [(.delete, ⟨1, 3, 10, 3⟩)], rfl, rfl⟩
  · intro h
    exact absurd (h (1, 5) (1, 3) ⟨1, 5, 10, 3⟩ ⟨1, 3, 10, 3⟩ 3 rfl rfl rfl rfl rfl) (by decide)
  · rw [hw]; rfl
  · have key : ∀ k m v, ((codedStored.set (1, 5) (some ⟨1, 5, 10, 3⟩)).set (1, 3) none) k = some m → dataCol m = some v → k = if v = 3 then (1, 5) else (1, v) := by
      intro k m v hk hv
      simp only [Store.set] at hk
      split at hk
      · cases hk
      · split at hk
        · rename_i h
          simp only [Option.some.injEq] at hk
          subst hk
          simp only [dataCol, Nat.reduceEqDiff, if_false, Option.some.injEq] at hv
          subst hv
          rw [h, if_pos rfl]
        · rename_i h3 _
          have := coded_key hk hv
          subst this
          rw [if_neg (fun hc => h3 (by rw [hc]))]
    intro k k' m m' v h1 h2 _ hv hv'
    rw [key k m v h1 hv, key k' m' v h2 hv']

open Demo in
/-- **C131 is false in general**: items 1 and 2 exchange their values. After the first of the two updates both rows have the same value. -/
theorem C131_swap_fails : (persist okEnv stdOpts swapped).1.isOk = true ∧ UniqueCol dataCol codedStored ∧
    ∃ st1, Midway (written (persist okEnv stdOpts swapped).2.trace) codedStored st1 ∧ ¬ UniqueCol dataCol st1 := by
  have hw : (written (persist okEnv stdOpts swapped).2.trace).map (fun a => (a.op, a.models)) = [(.update, [⟨1, 1, 10, 2⟩, ⟨1, 2, 10, 1⟩])] := by decide +kernel
  refine ⟨by decide +kernel, coded_unique, codedStored.set (1, 1) (some ⟨1, 1, 10, 2⟩), ?_, ?_⟩
  · refine ⟨[(.update, ⟨1, 1, 10, 2⟩)], [(.update, ⟨1, 2, 10, 1⟩)], ?_, rfl⟩
    obtain ⟨a, ha, hm⟩ := List.map_eq_singleton_iff.1 hw
    rw [ha]
    simp only [Prod.mk.injEq] at hm
    simp [hm.1, hm.2]
  · intro h
    exact absurd (h (1, 1) (1, 2) ⟨1, 1, 10, 2⟩ ⟨1, 2, 10, 2⟩ 2 rfl rfl rfl rfl rfl) (by decide)

end Ddd
