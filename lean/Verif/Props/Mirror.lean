import Verif.Props.Rows
import Verif.Spec.Store
/-!
# C03: after a save the store mirrors the aggregate
-/
set_option linter.unusedVariables false
namespace Ddd
open Spec

variable (env : Env) (opts : Opts)

/-! ## literal application -/

/-- the rows of the batches, one by one -/
def rowsOf (as : List Action) : List (Op × Model) := as.flatMap fun a => a.models.map fun m => (a.op, m)

theorem apply_eq (a : Action) (st : Store) : st.apply a = (a.models.map fun m => (a.op, m)).foldlM (fun st x => st.put x.1 x.2) st := by
  rw [Store.apply, List.foldlM_map]

theorem applyAll_eq (as : List Action) (st : Store) : st.applyAll as = (rowsOf as).foldlM (fun st x => st.put x.1 x.2) st := by
  induction as generalizing st with
  | nil => rfl
  | cons a as ih =>
    simp only [Store.applyAll, rowsOf, List.foldlM_cons, List.flatMap_cons, List.foldlM_append] at ih ⊢
    rw [apply_eq]
    cases h : (a.models.map fun m => (a.op, m)).foldlM (fun st x => st.put x.1 x.2) st with
    | none => rfl
    | some st1 => exact ih st1

/-- rows with the same key: same operation, and the same model unless deleted -/
def Coherent (l : List (Op × Model)) : Prop :=
  ∀ x ∈ l, ∀ y ∈ l, x.2.key = y.2.key → x.1 = y.1 ∧ (x.1 ≠ .delete → x.2 = y.2)

/-- what a row does -/
def effect (x : Op × Model) (old : Option Model) : Option Model :=
  match x.1 with
  | .insert => some x.2
  | .update => old.map fun _ => x.2
  | .delete => none
  | .query => old

theorem put_other {op : Op} {st st' : Store} {m : Model} (h : st.put op m = some st') {k : Nat × Nat} (hk : k ≠ m.key) : st' k = st k := by
  cases op <;> simp only [Store.put] at h
  · split at h
    · cases h
    · simp only [Option.some.injEq] at h; rw [← h]; simp [Store.set, hk]
  · split at h
    · simp only [Option.some.injEq] at h; rw [← h]; simp [Store.set, hk]
    · simp only [Option.some.injEq] at h; rw [← h]
  · simp only [Option.some.injEq] at h; rw [← h]; simp [Store.set, hk]
  · simp only [Option.some.injEq] at h; rw [← h]

theorem put_self {op : Op} {st st' : Store} {m : Model} (h : st.put op m = some st') :
    st' m.key = effect (op, m) (st m.key) ∧ (op = .insert → st m.key = none) := by
  cases op <;> simp only [Store.put] at h
  · split at h
    · cases h
    · rename_i hn
      simp only [Option.some.injEq] at h; rw [← h]
      simp only [Store.set, if_true, effect, true_and, forall_const]
      simpa using hn
  · split at h
    · rename_i hs
      simp only [Option.some.injEq] at h; rw [← h]
      obtain ⟨x, hx⟩ := Option.isSome_iff_exists.mp hs
      simp [Store.set, effect, hx]
    · rename_i hs
      simp only [Option.some.injEq] at h; rw [← h]
      have : st m.key = none := by simpa using hs
      simp [effect, this]
  · simp only [Option.some.injEq] at h; rw [← h]; simp [Store.set, effect]
  · simp only [Option.some.injEq] at h; rw [← h]; simp [effect]

theorem fold_effect (l : List (Op × Model)) : ∀ (st st' : Store), Coherent l → l.foldlM (fun st x => st.put x.1 x.2) st = some st' →
    (∀ k, (∀ x ∈ l, x.2.key ≠ k) → st' k = st k) ∧ (∀ x ∈ l, st' x.2.key = effect x (st x.2.key)) ∧ ∀ x ∈ l, x.1 = .insert → st x.2.key = none := by
  induction l with
  | nil => intro st st' _ h; simp at h; subst h; simp
  | cons x l ih =>
    intro st st' hc h
    simp only [List.foldlM_cons, Option.bind_eq_bind] at h
    cases hp : st.put x.1 x.2 with
    | none => simp [hp] at h
    | some st1 =>
      simp only [hp, Option.bind_some] at h
      obtain ⟨h1, h2, h3⟩ := ih st1 st' (fun a ha b hb => hc a (by simp [ha]) b (by simp [hb])) h
      obtain ⟨ps, pi⟩ := put_self hp
      refine ⟨?_, ?_, ?_⟩
      · intro k hk
        rw [h1 k fun y hy => hk y (by simp [hy])]
        exact put_other hp (fun e => hk x (by simp) e.symm)
      · intro y hy
        -- is the key of `y` written again later?
        by_cases hl : ∃ z ∈ l, z.2.key = y.2.key
        · obtain ⟨z, hz, hzk⟩ := hl
          have hzy := hc z (by simp [hz]) y hy hzk
          have hzst := h2 z hz
          rw [hzk] at hzst
          have hexy : ∀ o, effect z o = effect y o := by
            intro o
            obtain ⟨zo, zm⟩ := z
            obtain ⟨yo, ym⟩ := y
            simp only at hzy
            obtain ⟨rfl, hm⟩ := hzy
            cases zo <;> simp_all [effect]
          rw [hzst, hexy]
          by_cases hxk : y.2.key = x.2.key
          · have hxy := hc x (by simp) y hy hxk.symm
            rw [hxk, ps]
            have : ∀ o, effect x o = effect y o := by
              intro o
              obtain ⟨xo, xm⟩ := x
              obtain ⟨yo, ym⟩ := y
              simp only at hxy
              obtain ⟨rfl, hm⟩ := hxy
              cases xo <;> simp_all [effect]
            show effect y (effect x _) = _
            rw [this]
            simp only [effect]
            cases y.1 <;> simp [Function.comp_def]
          · rw [put_other hp hxk]
        · have hyx : y = x := by
            rcases List.mem_cons.mp hy with h | h
            · exact h
            · exact absurd ⟨y, h, rfl⟩ hl
          subst hyx
          rw [h1 _ (fun z hz e => hl ⟨z, hz, e⟩), ps]
      · intro y hy hyi
        rcases List.mem_cons.mp hy with rfl | hy'
        · exact pi hyi
        · have := h3 y hy' hyi
          by_cases hxk : y.2.key = x.2.key
          · have hxy := hc x (by simp) y hy hxk.symm
            have hxi : x.1 = .insert := by rw [hxy.1, hyi]
            rw [hxk] at this
            rw [ps] at this
            simp [effect, hxi] at this
          · rw [put_other hp hxk] at this; exact this

theorem mem_rowsOf (es : List Entry) (hop : ∀ e ∈ es, e.op ≠ .query) (x : Op × Model) :
    x ∈ rowsOf (batches es) ↔ ∃ e ∈ es, x = (e.op, e.model) := by
  simp only [rowsOf, List.mem_flatMap, mem_batches, List.mem_map]
  constructor
  · rintro ⟨a, ⟨op, t, _, _, rfl⟩, m, hm, rfl⟩
    simp only [batch, List.mem_map, List.mem_filter, decide_eq_true_eq] at hm
    obtain ⟨e, ⟨he, h1, h2⟩, rfl⟩ := hm
    exact ⟨e, he, by rw [← h1]; rfl⟩
  · rintro ⟨e, he, rfl⟩
    refine ⟨batch es e.op e.model.typ, ⟨e.op, e.model.typ, ?_, ⟨e, he, rfl, rfl⟩, rfl⟩, e.model, ?_, rfl⟩
    · have := hop e he
      cases h : e.op <;> simp_all
    · simp only [batch, List.mem_map, List.mem_filter, decide_eq_true_eq]
      exact ⟨e, ⟨he, rfl, rfl⟩, rfl⟩

theorem fold_succeeds (l : List (Op × Model)) : ∀ (st : Store), Coherent l → (∀ x ∈ l, x.1 = .insert → st x.2.key = none) →
    (∀ m, l.count (.insert, m) ≤ 1) → ∃ st', l.foldlM (fun st x => st.put x.1 x.2) st = some st' := by
  induction l with
  | nil => intro st _ _ _; exact ⟨st, rfl⟩
  | cons x l ih =>
    intro st hc hf hn
    have hp : ∃ st1, st.put x.1 x.2 = some st1 := by
      have := hf x (by simp)
      cases hx : x.1 with
      | insert => simp [Store.put, this hx]
      | update => by_cases h : (st x.2.key).isSome <;> simp [Store.put, h]
      | delete => simp [Store.put]
      | query => simp [Store.put]
    obtain ⟨st1, hp⟩ := hp
    simp only [List.foldlM_cons, Option.bind_eq_bind, hp, Option.bind_some]
    apply ih
    · exact fun a ha b hb => hc a (by simp [ha]) b (by simp [hb])
    · intro y hy hyi
      by_cases hk : y.2.key = x.2.key
      · exfalso
        obtain ⟨h1, h2⟩ := hc y (by simp [hy]) x (by simp) hk
        have : y = x := by
          obtain ⟨yo, ym⟩ := y; obtain ⟨xo, xm⟩ := x
          simp only at h1 h2 hyi
          subst hyi; subst h1
          rw [h2 (by simp)]
        subst this
        obtain ⟨yo, ym⟩ := y
        simp only at hyi
        subst hyi
        have := hn ym
        rw [List.count_cons_self] at this
        have := List.count_pos_iff.mpr hy
        omega
      · rw [put_other hp hk]; exact hf y (by simp [hy]) hyi
    · intro m
      exact le_trans (List.count_le_count_cons) (hn m)

theorem count_rowsOf (as : List Action) (op : Op) (m : Model) :
    (rowsOf as).count (op, m) = ((as.filter fun a => decide (a.op = op)).map fun a => a.models.count m).sum := by
  induction as with
  | nil => rfl
  | cons a as ih =>
    have : rowsOf (a :: as) = (a.models.map fun m => (a.op, m)) ++ rowsOf as := rfl
    rw [this, List.count_append, ih]
    by_cases h : a.op = op
    · subst h
      rw [List.filter_cons_of_pos (by simp), List.map_cons, List.sum_cons]
      congr 1
      simp only [List.count, List.countP_map]
      apply List.countP_congr
      intro x _
      simp
    · rw [List.filter_cons_of_neg (by simpa using h)]
      have : (a.models.map fun m => (a.op, m)).count (op, m) = 0 := by
        rw [List.count_eq_zero]
        intro hm
        obtain ⟨_, _, e⟩ := List.mem_map.mp hm
        exact h (by simpa using congrArg Prod.fst e)
      omega

/-- **C03** (row by row, with entity hooks): a successful save asks the converter for the changed entities (`asked`, described by C01 and C08) and gets models built from one state `h2` of the objects.
Over an executor that applies the writes literally and rows that do not share keys, every inserted row holds its model, every updated row that existed holds its model,
every deleted row is gone, and every other row is untouched. Inserted rows did not exist. -/
theorem C03_effect {s s' : St} (h : persist env opts s = (.ok (), s')) (hd : opts.dryRun = false) :
    ∃ (t : Trace) (rs : List (Option Model)) (h2 : Heap), s'.trace = s.trace ++ t ∧ List.Forall₂ (Answered env h2) (asked t) rs ∧
      ((∀ p k, env.hasHook p k = false) → h2 = s'.heap) ∧
      (∀ st st' : Store, st.applyAll (written t) = some st' →
        (∀ j m j' m', (j, some m) ∈ (asked t).zip rs → (j', some m') ∈ (asked t).zip rs → m.key = m'.key → j.op = j'.op ∧ (j.op ≠ .delete → m = m')) →
        (∀ j m, (j, some m) ∈ (asked t).zip rs → match j.op with
          | .insert => st m.key = none ∧ st' m.key = some m
          | .update => st' m.key = (st m.key).map fun _ => m
          | _ => st' m.key = none) ∧
        ∀ k, (∀ j m, (j, some m) ∈ (asked t).zip rs → m.key ≠ k) → st' k = st k) ∧
      ∀ st : Store,
        (∀ j m j' m', (j, some m) ∈ (asked t).zip rs → (j', some m') ∈ (asked t).zip rs → m.key = m'.key → j.op = j'.op ∧ (j.op ≠ .delete → m = m')) →
        (∀ j m, (j, some m) ∈ (asked t).zip rs → j.op = .insert → st m.key = none) →
        (∀ m, ((asked t).zip rs).countP (fun x => decide (x.1.op = .insert ∧ x.2 = some m)) ≤ 1) →
        ∃ st', st.applyAll (written t) = some st' := by
  obtain ⟨cs, h1, h2, k, rs, hist, hc, ha, ht, hsn, _, _, _, _, hact, _, _, _, _, hh2⟩ := persist_effect env opts h
  obtain ⟨cs', t, hc', ht', hask⟩ := save_calls env opts h
  rw [hc] at hc'
  simp only [Option.some.injEq] at hc'
  subst hc'
  have hw : written t = batches (entries s.snap (jobs cs) rs) := by
    have : t = hookCalls env true cs ++ List.replicate k (.newID .ok) ++ convCalls (jobs cs) rs ++
        ((batches (entries s.snap (jobs cs) rs)).map fun a => .exec a .ok) ++ hookCalls env false cs := by
      rw [ht'] at ht
      simp only [hd, Bool.false_eq_true, if_false, List.append_assoc, List.append_cancel_left_eq] at ht
      simp only [List.append_assoc]; exact ht
    rw [this]
    simp only [written_append, written_hookCalls, written_convCalls, written_exec]
    rw [written_none (t := List.replicate k (.newID .ok))]
    · simp
    · intro a st h; have := List.eq_of_mem_replicate h; cases this
  refine ⟨t, rs, h2, ht', by rw [hask]; exact ha, ?_, ?_⟩
  · intro hno
    symm
    apply hh2
    rw [List.eq_nil_iff_forall_not_mem]
    intro c hc
    obtain ⟨p, ct, _, hk, _⟩ := hookCalls_hook env hc
    rw [hno] at hk; cases hk
  rw [hask, hw]
  have hmem : ∀ x, x ∈ rowsOf (batches (entries s.snap (jobs cs) rs)) ↔ ∃ j m, (j, some m) ∈ (jobs cs).zip rs ∧ x = (j.op, m) := by
    intro x
    rw [mem_rowsOf]
    · constructor
      · rintro ⟨e, he, rfl⟩
        obtain ⟨j, m, hz, h1, h2, _⟩ := entries_spec _ _ _ he
        exact ⟨j, m, hz, by rw [h1, h2]⟩
      · rintro ⟨j, m, hz, rfl⟩
        refine ⟨⟨j.op, m, if j.op = .update then [(s.snap j.node).bind Snap.po] else []⟩, ?_, rfl⟩
        simp only [entries, List.mem_filterMap]
        exact ⟨(j, some m), hz, rfl⟩
    · intro e he
      obtain ⟨j, m, hz, h1, _⟩ := entries_spec _ _ _ he
      rw [h1]
      exact jobs_op (List.of_mem_zip hz).1
  have hcnt : ∀ m, (rowsOf (batches (entries s.snap (jobs cs) rs))).count (.insert, m) =
      ((jobs cs).zip rs).countP fun x => decide (x.1.op = .insert ∧ x.2 = some m) := by
    intro m
    rw [count_rowsOf, (wellBatched _).complete .insert (by simp), entries, List.countP_filterMap]
    apply List.countP_congr
    rintro ⟨j, r⟩ _
    cases r <;> simp [entryOf]
  refine ⟨?_, ?_⟩
  · intro st st' happ hcoh
    rw [applyAll_eq] at happ
    obtain ⟨f1, f2, f3⟩ := fold_effect _ st st' (by
      intro x hx y hy hk
      obtain ⟨j, m, hz, rfl⟩ := (hmem x).mp hx
      obtain ⟨j', m', hz', rfl⟩ := (hmem y).mp hy
      exact hcoh j m j' m' hz hz' hk) happ
    refine ⟨?_, ?_⟩
    · intro j m hz
      have hx : (j.op, m) ∈ rowsOf (batches (entries s.snap (jobs cs) rs)) := (hmem _).mpr ⟨j, m, hz, rfl⟩
      have e1 := f2 _ hx
      have e2 := f3 _ hx
      have hq := jobs_op (List.of_mem_zip hz).1
      cases hop : j.op <;> simp_all [effect]
    · intro k hk
      apply f1
      intro x hx
      obtain ⟨j, m, hz, rfl⟩ := (hmem x).mp hx
      exact hk j m hz
  · intro st hcoh hf hn
    rw [applyAll_eq]
    apply fold_succeeds
    · intro x hx y hy hk
      obtain ⟨j, m, hz, rfl⟩ := (hmem x).mp hx
      obtain ⟨j', m', hz', rfl⟩ := (hmem y).mp hy
      exact hcoh j m j' m' hz hz' hk
    · intro x hx hi
      obtain ⟨j, m, hz, rfl⟩ := (hmem x).mp hx
      exact hf j m hz hi
    · intro m; rw [hcnt]; exact hn m

theorem answered_row {row : Heap → Node → Node → Option Model} (hrow : RowOf env row) {h : Heap} {j : Job} {r : Option Model}
    (hq : j.op ≠ .query) (ha : Answered env h j r) : r = row h j.node j.parent := by
  obtain ⟨t, ha⟩ := ha
  have := hrow t h j.node j.parent j.op hq
  cases r with
  | none =>
    obtain ⟨e, h1, h2⟩ := ha
    cases hr : row h j.node j.parent with
    | none => rfl
    | some m => rw [hr] at this; simp only at this; rw [this] at h1; cases h1
  | some m =>
    simp only at ha
    cases hr : row h j.node j.parent with
    | none =>
      rw [hr] at this; simp only at this
      obtain ⟨e, h1, _⟩ := this
      rw [h1] at ha; cases ha
    | some m' =>
      rw [hr] at this; simp only at this
      rw [this] at ha
      simp only [Res.ok.injEq] at ha
      rw [ha]

theorem forall₂_zip {α β : Type} {R : α → β → Prop} {l : List α} {l' : List β} (h : List.Forall₂ R l l') : ∀ a b, (a, b) ∈ l.zip l' → R a b := by
  induction h with
  | nil => simp
  | cons h _ ih =>
    intro a b hm
    simp only [List.zip_cons_cons, List.mem_cons, Prod.mk.injEq] at hm
    rcases hm with ⟨rfl, rfl⟩ | hm
    · exact h
    · exact ih a b hm

theorem forall₂_zip_mem {α β : Type} {R : α → β → Prop} {l : List α} {l' : List β} (h : List.Forall₂ R l l') : ∀ a ∈ l, ∃ b, (a, b) ∈ l.zip l' := by
  induction h with
  | nil => simp
  | cons h _ ih =>
    intro a hm
    rcases List.mem_cons.mp hm with rfl | hm
    · exact ⟨_, by rw [List.zip_cons_cons]; exact List.mem_cons_self⟩
    · obtain ⟨b, hb⟩ := ih a hm; exact ⟨b, by simp [hb]⟩

theorem insert_count {s : St} {cs : List (Change Node)} (h : entityChanges env opts s = some cs) (j : Job) (hi : j.op = .insert) : (jobs cs).count j ≤ 1 := by
  obtain ⟨res, h1, rfl⟩ := entityChanges_some env opts h
  have hn : (jobs res).Nodup := by
    have := handleEntityMove_nodup _ (diff_nodup s) h1
    rw [← jobs_nodes] at this
    exact List.Nodup.of_map _ this
  split
  · unfold recursiveDelete jobs
    rw [List.flatMap_append, List.count_append]
    refine le_trans (Nat.add_le_add_left (Nat.le_of_eq (List.count_eq_zero.mpr ?_)) _) ((List.nodup_iff_count_le_one.mp hn) j)
    intro hm
    obtain ⟨x, hx, hm⟩ := List.mem_flatMap.mp hm
    simp only [List.mem_flatMap, List.mem_map] at hx hm
    obtain ⟨_, _, _, _, _, _, _, _, rfl⟩ := hx
    obtain ⟨_, _, rfl⟩ := hm
    cases hi
  · exact (List.nodup_iff_count_le_one.mp hn) j

/-- the model recorded for an entity when it was loaded or last saved -/
def po (s : St) (n : Node) : Option Model := (s.snap n).bind Snap.po

/-- **C03** (with entity hooks) The same when entity types have hooks: `h2` is the state of the objects when they are converted, after the "before" hooks and the generation of IDs
(`Spec.RowOf` evaluates the converter there); the hypotheses on keys and on untouched entities are about `h2`. -/
theorem C03_mirror_hooks {s s' : St} (h : persist env opts s = (.ok (), s')) (hd : opts.dryRun = false)
    {row : Heap → Node → Node → Option Model} (hrow : RowOf env row) (hone : OnePlace s.now none)
    (hapart : ∀ n p p', Removed s.now s.kidPool opts.recursiveDelete n p → Reach s.now none p' → ¬ Child s.now p' n) :
    ∃ t h2, s'.trace = s.trace ++ t ∧ ((∀ p k, env.hasHook p k = false) → h2 = s'.heap) ∧
     ∀ st : Store,
      (∀ n p n' p' m m', Placed s.now s.kidPool opts.recursiveDelete n p → Placed s.now s.kidPool opts.recursiveDelete n' p' →
        row h2 n p = some m → row h2 n' p' = some m' → m.key = m'.key → n = n') →
      (∀ n m, po s n = some m → st m.key = some m) →
      (∀ n p m, Reach s.now none p → Child s.now p n → (∃ q k, Had s.kidPool q k n) → row h2 n p = some m →
        ∃ m0, po s n = some m0 ∧ m0.key = m.key) →
      (∀ n p k, Reach s.now none p → Has s.now p k n → Had s.kidPool p k n → s.heap.dirtyNode n = false → row h2 n p = po s n) →
      ((∀ n p k m, Added s.now s.kidPool none p k n → (¬ ∃ p' k', Gone s.now s.kidPool none p' k' n) → row h2 n p = some m → st m.key = none) →
        ∃ st', st.applyAll (written t) = some st') ∧
      ∀ st' : Store, st.applyAll (written t) = some st' →
        (∀ n p m, Reach s.now none p → Child s.now p n → row h2 n p = some m → st' m.key = some m) ∧
        (∀ n p m, Removed s.now s.kidPool opts.recursiveDelete n p → row h2 n p = some m → st' m.key = none) ∧
        ∀ k, (∀ n p m, Placed s.now s.kidPool opts.recursiveDelete n p → row h2 n p = some m → m.key ≠ k) → st' k = st k := by
  obtain ⟨t, rs, h2, ht, hans, hheap, heff⟩ := C03_effect env opts h hd
  obtain ⟨cs, t', hc, ht', hask⟩ := save_calls env opts h
  have : t' = t := by rw [ht] at ht'; simpa using ht'.symm
  subst this
  have hjobs := changes_jobs env opts hc
  refine ⟨t', h2, ht, hheap, ?_⟩
  intro st hdist hsync hstable hclean
  rw [hask] at heff hans
  obtain ⟨heff, hsucc⟩ := heff
  have hval : ∀ j r, (j, r) ∈ (jobs cs).zip rs → r = row h2 j.node j.parent := fun j r hz =>
    answered_row env hrow (jobs_op (List.of_mem_zip hz).1) (forall₂_zip hans j r hz)
  have hin : ∀ j ∈ jobs cs, ∀ m, row h2 j.node j.parent = some m → (j, some m) ∈ (jobs cs).zip rs := by
    intro j hj m hm
    obtain ⟨r, hr⟩ := forall₂_zip_mem hans j hj
    rw [hval j r hr, hm] at hr
    exact hr
  -- where a job sits
  have hwhere : ∀ n p op, (⟨n, p, op⟩ : Job) ∈ jobs cs → (op = .delete ∧ Removed s.now s.kidPool opts.recursiveDelete n p) ∨
      (op ≠ .delete ∧ Reach s.now none p ∧ Child s.now p n) := by
    intro n p op hj
    have := (hjobs op p n).mp hj
    cases op with
    | insert => obtain ⟨⟨k, h1, h2, _⟩, _⟩ := this; exact Or.inr ⟨by simp, h1, k, h2⟩
    | update =>
      rcases this with ⟨k, h1, h2, _⟩ | ⟨⟨k, h1, h2, _⟩, _⟩ <;> exact Or.inr ⟨by simp, h1, k, h2⟩
    | delete => exact Or.inl ⟨rfl, this⟩
    | query => exact this.elim
  have hplaced : ∀ n p op, (⟨n, p, op⟩ : Job) ∈ jobs cs → Placed s.now s.kidPool opts.recursiveDelete n p := by
    intro n p op hj
    rcases hwhere n p op hj with ⟨_, h⟩ | ⟨_, h⟩
    · exact Or.inr h
    · exact Or.inl h
  -- one operation per entity
  have hop : ∀ n p op p' op', (⟨n, p, op⟩ : Job) ∈ jobs cs → (⟨n, p', op'⟩ : Job) ∈ jobs cs → op = op' ∧ (op ≠ .delete → p = p') := by
    intro n p op p' op' hj hj'
    rcases hwhere n p op hj with ⟨rfl, hr⟩ | ⟨ho, hr, hch⟩
    · rcases hwhere n p' op' hj' with ⟨rfl, _⟩ | ⟨_, hr', hch'⟩
      · exact ⟨rfl, fun h => absurd rfl h⟩
      · exact absurd hch' (hapart n p p' hr hr')
    · rcases hwhere n p' op' hj' with ⟨rfl, hr'⟩ | ⟨ho', hr', hch'⟩
      · exact absurd hch (hapart n p' p hr' hr)
      · have hpp : p = p' := by
          obtain ⟨k, hk⟩ := hch
          obtain ⟨k', hk'⟩ := hch'
          exact (hone p k n p' k' hr hr' hk hk').1
        subst hpp
        refine ⟨?_, fun _ => rfl⟩
        have a := (hjobs op p n).mp hj
        have b := (hjobs op' p n).mp hj'
        have same : ∀ k k', Has s.now p k n → Has s.now p k' n → k = k' := fun k k' h h' => (hone p k n p k' hr hr h h').2
        cases op with
        | query => exact a.elim
        | delete => exact absurd rfl ho
        | insert =>
          cases op' with
          | query => exact b.elim
          | delete => exact absurd rfl ho'
          | insert => rfl
          | update =>
            obtain ⟨⟨k, _, h1, h2⟩, h3⟩ := a
            rcases b with ⟨k', _, g1, g2, _⟩ | ⟨_, g⟩
            · rw [same k k' h1 g1] at h2; exact absurd g2 h2
            · exact absurd g h3
        | update =>
          cases op' with
          | query => exact b.elim
          | delete => exact absurd rfl ho'
          | update => rfl
          | insert =>
            obtain ⟨⟨k, _, h1, h2⟩, h3⟩ := b
            rcases a with ⟨k', _, g1, g2, _⟩ | ⟨_, g⟩
            · rw [same k k' h1 g1] at h2; exact absurd g2 h2
            · exact absurd g h3
  have hcoh : ∀ j m j' m', (j, some m) ∈ (jobs cs).zip rs → (j', some m') ∈ (jobs cs).zip rs → m.key = m'.key → j.op = j'.op ∧ (j.op ≠ .delete → m = m') := by
    rintro ⟨n, p, op⟩ m ⟨n', p', op'⟩ m' hz hz' hk
    have v := hval _ _ hz
    have v' := hval _ _ hz'
    have j := (List.of_mem_zip hz).1
    have j' := (List.of_mem_zip hz').1
    simp only at v v'
    have : n = n' := hdist n p n' p' m m' (hplaced n p op j) (hplaced n' p' op' j') v.symm v'.symm hk
    subst this
    obtain ⟨o1, o2⟩ := hop n p op p' op' j j'
    refine ⟨o1, fun hne => ?_⟩
    have := o2 hne
    subst this
    rw [← v] at v'
    simpa using v'.symm
  refine ⟨?_, ?_⟩
  · intro hfresh
    refine hsucc st hcoh ?_ ?_
    · rintro ⟨n, p, op⟩ m hz hop'
      simp only at hop'
      subst hop'
      have j := (List.of_mem_zip hz).1
      obtain ⟨⟨k, ha⟩, hg⟩ := (hjobs .insert p n).mp j
      exact hfresh n p k m ha hg (hval _ _ hz).symm
    · intro m
      by_contra hlt
      have hpos : 0 < ((jobs cs).zip rs).countP (fun x => decide (x.1.op = .insert ∧ x.2 = some m)) := by omega
      obtain ⟨⟨j, r⟩, hz, hx⟩ := List.countP_pos_iff.mp hpos
      simp only [decide_eq_true_eq] at hx
      obtain ⟨hji, rfl⟩ := hx
      have hle : ((jobs cs).zip rs).countP (fun x => decide (x.1.op = .insert ∧ x.2 = some m)) ≤ (jobs cs).count j := by
        have h1 : ((jobs cs).zip rs).countP (fun x => decide (x.1.op = .insert ∧ x.2 = some m)) ≤ ((jobs cs).zip rs).countP (fun x => x.1 == j) := by
          apply List.countP_mono_left
          rintro ⟨j', r'⟩ hz' hx'
          simp only [decide_eq_true_eq] at hx'
          obtain ⟨hji', rfl⟩ := hx'
          have v := hval _ _ hz
          have v' := hval _ _ hz'
          have a := (List.of_mem_zip hz).1
          have a' := (List.of_mem_zip hz').1
          obtain ⟨n, p, op⟩ := j
          obtain ⟨n', p', op'⟩ := j'
          simp only at hji hji' v v'
          subst hji; subst hji'
          have : n' = n := hdist n' p' n p m m (hplaced _ _ _ a') (hplaced _ _ _ a) v'.symm v.symm rfl
          subst this
          have := (hop _ _ _ _ _ a' a).2 (by simp)
          subst this
          simp
        refine le_trans h1 ?_
        have h2 : ((jobs cs).zip rs).countP (fun x => x.1 == j) = (((jobs cs).zip rs).map Prod.fst).count j := by
          rw [List.count, List.countP_map]; rfl
        rw [h2, List.map_fst_zip (by rw [hans.length_eq])]
      have := insert_count env opts hc j hji
      omega
  intro st' happ
  obtain ⟨e1, e2⟩ := heff st st' happ hcoh
  refine ⟨?_, ?_, ?_⟩
  · intro n p m hr hch hm
    obtain ⟨k, hk⟩ := hch
    have hupd : (⟨n, p, .update⟩ : Job) ∈ jobs cs → (∃ q k, Had s.kidPool q k n) → st' m.key = some m := by
      intro hj hhad
      have := e1 _ m (hin _ hj m hm)
      simp only at this
      obtain ⟨m0, h1, h2⟩ := hstable n p m hr ⟨k, hk⟩ hhad hm
      rw [this, ← h2, hsync n m0 h1]; rfl
    by_cases hhad : Had s.kidPool p k n
    · cases hdirty : s.heap.dirtyNode n with
      | true =>
        exact hupd ((hjobs .update p n).mpr (Or.inl ⟨k, hr, hk, hhad, hdirty⟩)) ⟨p, k, hhad⟩
      | false =>
        have hst : st m.key = some m := hsync n m (by rw [← hclean n p k hr hk hhad hdirty, hm])
        rw [e2 m.key ?_, hst]
        rintro ⟨n', p', op'⟩ m' hz hkey
        have v' := hval _ _ hz
        have j' := (List.of_mem_zip hz).1
        simp only at v'
        have : n' = n := hdist n' p' n p m' m (hplaced n' p' op' j') (Or.inl ⟨hr, k, hk⟩) v'.symm hm hkey
        subst this
        rcases hwhere _ p' op' j' with ⟨rfl, hrem⟩ | ⟨ho, hr', k', hk'⟩
        · exact hapart _ p' p hrem hr ⟨k, hk⟩
        · obtain ⟨rfl, rfl⟩ := hone p k _ p' k' hr hr' hk hk'
          have j := (hjobs op' p n').mp j'
          have same : ∀ k', Has s.now p k' n' → k' = k := fun k' h => (hone p k' _ p k hr hr h hk).2
          cases op' with
          | query => exact j
          | delete => exact ho rfl
          | insert =>
            obtain ⟨⟨k', _, h1, h2⟩, _⟩ := j
            rw [same k' h1] at h2; exact h2 hhad
          | update =>
            rcases j with ⟨k', _, _, _, h1⟩ | ⟨⟨k', _, h1, h2⟩, _⟩
            · rw [hdirty] at h1; cases h1
            · rw [same k' h1] at h2; exact h2 hhad
    · have hadd : Added s.now s.kidPool none p k n := ⟨hr, hk, hhad⟩
      by_cases hg : ∃ p' k', Gone s.now s.kidPool none p' k' n
      · obtain ⟨p', k', hg'⟩ := hg
        exact hupd ((hjobs .update p n).mpr (Or.inr ⟨⟨k, hadd⟩, p', k', hg'⟩)) ⟨p', k', hg'.2.2.1⟩
      · have hj := (hjobs .insert p n).mpr ⟨⟨k, hadd⟩, hg⟩
        exact (e1 _ m (hin _ hj m hm)).2
  · intro n p m hrem hm
    have hj : (⟨n, p, .delete⟩ : Job) ∈ jobs cs := (hjobs .delete p n).mpr hrem
    exact e1 _ m (hin _ hj m hm)
  · intro k hk
    apply e2
    rintro ⟨n, p, op⟩ m hz
    exact hk n p m (hplaced n p op (List.of_mem_zip hz).1) (hval _ _ hz).symm

/-- **C03** After a successful save, over an executor that applies the writes literally, the store mirrors the aggregate:
every entity of the aggregate has its current row, every removed entity has none, and rows of other keys are untouched.
The writes apply if the keys of the new entities are free.
Hypotheses: the model is a function `row` of the entity and its parent; no entity hooks (they may change entities while they are written: `C03_mirror_hooks` covers them); every entity sits in one place and what is removed is not also still in the aggregate;
different entities have different keys; before the save the store held the recorded rows, entities that were in the aggregate keep their key, and entities that are not marked dirty and stay in place have their recorded row. -/
theorem C03_mirror {s s' : St} (h : persist env opts s = (.ok (), s')) (hd : opts.dryRun = false) (hno : ∀ p k, env.hasHook p k = false)
    {row : Heap → Node → Node → Option Model} (hrow : RowOf env row) (hone : OnePlace s.now none)
    (hapart : ∀ n p p', Removed s.now s.kidPool opts.recursiveDelete n p → Reach s.now none p' → ¬ Child s.now p' n)
    (hdist : ∀ n p n' p' m m', Placed s.now s.kidPool opts.recursiveDelete n p → Placed s.now s.kidPool opts.recursiveDelete n' p' →
      row s'.heap n p = some m → row s'.heap n' p' = some m' → m.key = m'.key → n = n')
    (st : Store) (hsync : ∀ n m, po s n = some m → st m.key = some m)
    (hstable : ∀ n p m, Reach s.now none p → Child s.now p n → (∃ q k, Had s.kidPool q k n) → row s'.heap n p = some m →
      ∃ m0, po s n = some m0 ∧ m0.key = m.key)
    (hclean : ∀ n p k, Reach s.now none p → Has s.now p k n → Had s.kidPool p k n → s.heap.dirtyNode n = false → row s'.heap n p = po s n) :
    ∃ t, s'.trace = s.trace ++ t ∧
      ((∀ n p k m, Added s.now s.kidPool none p k n → (¬ ∃ p' k', Gone s.now s.kidPool none p' k' n) → row s'.heap n p = some m → st m.key = none) →
        ∃ st', st.applyAll (written t) = some st') ∧
      ∀ st' : Store, st.applyAll (written t) = some st' →
      (∀ n p m, Reach s.now none p → Child s.now p n → row s'.heap n p = some m → st' m.key = some m) ∧
      (∀ n p m, Removed s.now s.kidPool opts.recursiveDelete n p → row s'.heap n p = some m → st' m.key = none) ∧
      ∀ k, (∀ n p m, Placed s.now s.kidPool opts.recursiveDelete n p → row s'.heap n p = some m → m.key ≠ k) → st' k = st k := by
  obtain ⟨t, h2, ht, hh, hres⟩ := C03_mirror_hooks env opts h hd hrow hone hapart
  rw [hh hno] at hres
  exact ⟨t, ht, hres st hdist hsync hstable hclean⟩

/-! ## A concrete case: all kinds of change at once (`Demo.mixed`) -/
namespace Demo

def stdRow (h : Heap) (n p : Node) : Option Model :=
  match stdConv h n (some p) with
  | .ok m => some m
  | _ => none

theorem stdRow_of : RowOf okEnv stdRow := by
  intro t h n p op _
  cases n <;> simp [stdRow, stdConv, okEnv, Err.is]

/-- the rows of order 10 and items 1 to 4, and a row of somebody else -/
def stored : Store := fun k => if k = (1, 10) then some ⟨1, 10, 0, 0⟩ else if k.1 = 1 ∧ (k.2 = 1 ∨ k.2 = 2 ∨ k.2 = 3 ∨ k.2 = 4) then some ⟨1, k.2, 10, 0⟩
  else if k = (1, 77) then some ⟨1, 77, 5, 5⟩ else none

/-- the same with records of what does not exist left out -/
def recorded' (n : Node) : Option Snap := if n = none ∨ n = some 10 ∨ n = some 1 ∨ n = some 2 ∨ n = some 3 ∨ n = some 4 then recorded n else none

def mixed' : St := { mixed with snap := recorded' }

theorem mixed_has {p n : Node} {k : Key} (h : Has mixed'.now p k n) :
    (p = none ∧ k = 0 ∧ n = some 10) ∨ (p = some 10 ∧ k = 1 ∧ (n = some 1 ∨ n = some 5)) ∨ (p = some 10 ∧ k = 2 ∧ (n = some 4 ∨ n = some 2)) := by
  obtain ⟨cs, h1, h2⟩ := h
  cases p with
  | none =>
    have : mixed'.now none = [(0, [some 10])] := by decide
    rw [this] at h1
    simp only [List.mem_cons, List.not_mem_nil, or_false, Prod.mk.injEq] at h1
    obtain ⟨rfl, rfl⟩ := h1
    simp_all
  | some p =>
    by_cases hp : p = 10
    · subst hp
      have : mixed'.now (some 10) = [(1, [some 1, some 5]), (2, [some 4, some 2])] := by decide
      rw [this] at h1
      simp only [List.mem_cons, List.not_mem_nil, or_false, Prod.mk.injEq] at h1
      rcases h1 with ⟨rfl, rfl⟩ | ⟨rfl, rfl⟩ <;> simp_all
    · have : mixed'.now (some p) = [] := by
        have hne : ¬ (10 : Nat) = p := fun e => hp e.symm
        show List.map (fun g : Key × List Ptr => (g.1, g.2.map some)) (mixed'.heap.kids p) = []
        have : mixed'.heap.kids p = [] := by simp [mixed', mixed, orderSt, orderHeap, heapOf, hne]
        rw [this]; rfl
      rw [this] at h1
      cases h1

theorem mixed_had {p n : Node} {k : Key} (h : Had mixed'.kidPool p k n) :
    (p = none ∧ k = 0 ∧ n = some 10) ∨ (p = some 10 ∧ k = 1 ∧ (n = some 1 ∨ n = some 2 ∨ n = some 3)) ∨ (p = some 10 ∧ k = 2 ∧ n = some 4) := by
  obtain ⟨fs, cs, h0, h1, h2⟩ := h
  simp only [mixed', St.kidPool, recorded'] at h0
  split at h0
  · rename_i hp
    rcases hp with rfl | rfl | rfl | rfl | rfl | rfl <;> simp only [recorded, Option.map_some, Option.some.injEq] at h0 <;> subst h0 <;>
      simp only [List.mem_cons, List.not_mem_nil, or_false, Prod.mk.injEq] at h1
    · obtain ⟨rfl, rfl⟩ := h1; simp_all
    · rcases h1 with ⟨rfl, rfl⟩ | ⟨rfl, rfl⟩ <;> simp_all
  · simp at h0

theorem mixed_removed {n p : Node} (h : Removed mixed'.now mixed'.kidPool false n p) : n = some 3 ∧ p = some 10 := by
  rcases h with ⟨⟨k, _, hf, hh, hn⟩, ha⟩ | ⟨h, _⟩
  · have hr : Reach mixed'.now none (some 10) := .step .root ⟨0, [some 10], by decide, by decide⟩
    rcases mixed_had hh with ⟨rfl, rfl, rfl⟩ | ⟨rfl, rfl, rfl | rfl | rfl⟩ | ⟨rfl, rfl, rfl⟩
    · exact absurd ⟨[some 10], by decide, by decide⟩ hn
    · exact absurd ⟨[some 1, some 5], by decide, by decide⟩ hn
    · exfalso
      apply ha
      refine ⟨some 10, 2, hr, ⟨[some 4, some 2], by decide, by decide⟩, fun h => ?_⟩
      have := mixed_had h
      revert this; decide
    · exact ⟨rfl, rfl⟩
    · exact absurd ⟨[some 4, some 2], by decide, by decide⟩ hn
  · cases h

theorem mixed_ok : persist okEnv stdOpts mixed' = (.ok (), (persist okEnv stdOpts mixed').2) := by
  have : (persist okEnv stdOpts mixed').1.isOk = true := by decide +kernel
  cases h : persist okEnv stdOpts mixed' with
  | mk r s' => rw [h] at this; cases r <;> simp_all [Res.isOk]

theorem mixed_attr {s' : St} (h : persist okEnv stdOpts mixed' = (.ok (), s')) (q : Ptr) : s'.heap.attr q = mixed'.heap.attr q := by
  obtain ⟨cs, h1, h2, k, rs, hist, hc, _, _, _, _, _, _, _, _, _, _, hA, e1, e2⟩ := persist_effect okEnv stdOpts h
  have hn : ∀ b cs, hookCalls okEnv b cs = [] := by
    intro b cs
    rw [List.eq_nil_iff_forall_not_mem]
    intro c hc
    obtain ⟨_, _, _, hk, _⟩ := hookCalls_hook okEnv hc
    cases hk
  have hns : (entityChanges okEnv stdOpts mixed').map newNodes = some [some 5] := by decide +kernel
  rw [hc] at hns
  simp only [Option.map_some, Option.some.injEq] at hns
  rw [e2 (hn _ _)]
  have := hA.keep q
  simp only [e1 (hn _ _), hns] at this
  apply this
  by_cases hq : q = 5
  · left; subst hq; decide
  · right; simpa using hq

/-- what the converter says of the objects after the save -/
theorem mixed_row {s' : St} (h : persist okEnv stdOpts mixed' = (.ok (), s')) (n : Ptr) (p : Node) :
    stdRow s'.heap (some n) p = some ⟨1, n, nodeID s'.heap p, 0⟩ := by
  simp [stdRow, stdConv, mixed_attr h, mixed', mixed, orderSt, orderHeap, heapOf, stdAttr]

theorem mixed_id {s' : St} (hk : persist okEnv stdOpts mixed' = (.ok (), s')) (p : Ptr) : nodeID s'.heap (some p) = p := by
  simp [nodeID, mixed_attr hk, mixed', mixed, orderSt, orderHeap, heapOf, stdAttr]

theorem mixed_placed {n p : Node} (h : Placed mixed'.now mixed'.kidPool false n p) : ∃ x, n = some x ∧ x ≠ 77 := by
  rcases h with ⟨_, k, h⟩ | h
  · rcases mixed_has h with ⟨_, _, rfl⟩ | ⟨_, _, rfl | rfl⟩ | ⟨_, _, rfl | rfl⟩ <;> exact ⟨_, rfl, by decide⟩
  · exact ⟨3, (mixed_removed h).1, by decide⟩

theorem mixed_one : OnePlace mixed'.now none := by
  intro p k c p' k' _ _ h h'
  rcases mixed_has h with ⟨rfl, rfl, rfl⟩ | ⟨rfl, rfl, rfl | rfl⟩ | ⟨rfl, rfl, rfl | rfl⟩ <;>
    rcases mixed_has h' with ⟨rfl, rfl, h''⟩ | ⟨rfl, rfl, h'' | h''⟩ | ⟨rfl, rfl, h'' | h''⟩ <;> simp at h'' <;> simp

theorem mixed_apart (n p p' : Node) (h : Removed mixed'.now mixed'.kidPool false n p) (_ : Reach mixed'.now none p') : ¬ Child mixed'.now p' n := by
  intro ⟨k, hc⟩
  obtain ⟨rfl, rfl⟩ := mixed_removed h
  have := mixed_has hc
  revert this; simp

theorem mixed_dist {s' : St} (hk : persist okEnv stdOpts mixed' = (.ok (), s')) (n p n' p' : Node) (m m' : Model) (h : Placed mixed'.now mixed'.kidPool false n p)
    (h' : Placed mixed'.now mixed'.kidPool false n' p') (e : stdRow s'.heap n p = some m) (e' : stdRow s'.heap n' p' = some m') (hkey : m.key = m'.key) : n = n' := by
  obtain ⟨x, rfl, _⟩ := mixed_placed h
  obtain ⟨x', rfl, _⟩ := mixed_placed h'
  rw [mixed_row hk] at e e'
  simp only [Option.some.injEq] at e e'
  subst e; subst e'
  simpa [Model.key] using hkey

theorem mixed_sync (n : Node) (m : Model) (h : po mixed' n = some m) : stored m.key = some m := by
  simp only [po, mixed', recorded'] at h
  split at h
  · rename_i hp
    rcases hp with rfl | rfl | rfl | rfl | rfl | rfl <;> simp [recorded] at h <;> subst h <;> decide
  · simp at h

theorem mixed_stable {s' : St} (hk : persist okEnv stdOpts mixed' = (.ok (), s')) (n p : Node) (m : Model) (_ : Reach mixed'.now none p) (_ : Child mixed'.now p n)
    (hh : ∃ q k, Had mixed'.kidPool q k n) (e : stdRow s'.heap n p = some m) : ∃ m0, po mixed' n = some m0 ∧ m0.key = m.key := by
  obtain ⟨q, k', hh⟩ := hh
  rcases mixed_had hh with ⟨_, _, rfl⟩ | ⟨_, _, rfl | rfl | rfl⟩ | ⟨_, _, rfl⟩ <;> rw [mixed_row hk] at e <;>
    simp only [Option.some.injEq] at e <;> subst e <;> exact ⟨_, rfl, rfl⟩

theorem mixed_clean {s' : St} (hk : persist okEnv stdOpts mixed' = (.ok (), s')) (n p : Node) (k : Key) (_ : Reach mixed'.now none p) (h : Has mixed'.now p k n)
    (hh : Had mixed'.kidPool p k n) (hd : mixed'.heap.dirtyNode n = false) : stdRow s'.heap n p = po mixed' n := by
  rcases mixed_has h with ⟨rfl, rfl, rfl⟩ | ⟨rfl, rfl, rfl | rfl⟩ | ⟨rfl, rfl, rfl | rfl⟩
  · rw [mixed_row hk]; rfl
  · exact absurd hd (by decide)
  · have := mixed_had hh; revert this; simp
  · rw [mixed_row hk, mixed_id hk]; rfl
  · have := mixed_had hh; revert this; simp

/-- C03: every hypothesis is met, and what it says: order 10 and items 1, 5, 4, 2 are there, 3 is not, everything else is as before. -/
theorem mixed_saved : ∃ t st', (persist okEnv stdOpts mixed').2.trace = [] ++ t ∧ stored.applyAll (written t) = some st' ∧
    (∀ i ∈ [1, 5, 4, 2], st' (1, i) = some ⟨1, i, 10, 0⟩) ∧ st' (1, 10) = some ⟨1, 10, 0, 0⟩ ∧ st' (1, 3) = none ∧
    ∀ k, k ∉ [(1, 10), (1, 1), (1, 5), (1, 4), (1, 2), (1, 3)] → st' k = stored k := by
  have hk := mixed_ok
  generalize (persist okEnv stdOpts mixed').2 = s' at hk
  have hid := mixed_id hk
  have hrow := mixed_row hk
  have hr : Reach mixed'.now none (some 10) := .step .root ⟨0, [some 10], by decide, by decide⟩
  obtain ⟨t, ht, happ, hres⟩ := C03_mirror okEnv stdOpts hk rfl (fun _ _ => rfl) stdRow_of mixed_one mixed_apart (mixed_dist hk) stored mixed_sync (mixed_stable hk) (mixed_clean hk)
  obtain ⟨st', happ⟩ := happ (by
    intro n p k m ⟨_, h, hh⟩ hg e
    rcases mixed_has h with ⟨rfl, rfl, rfl⟩ | ⟨rfl, rfl, rfl | rfl⟩ | ⟨rfl, rfl, rfl | rfl⟩
    · exact absurd ⟨_, [some 10], rfl, by decide, by decide⟩ hh
    · exact absurd ⟨_, [some 1, some 2, some 3], rfl, by decide, by decide⟩ hh
    · rw [hrow] at e
      simp only [Option.some.injEq] at e
      subst e
      rfl
    · exact absurd ⟨_, [some 4], rfl, by decide, by decide⟩ hh
    · exact absurd ⟨some 10, 1, hr, ⟨[some 1, some 5], by decide⟩, ⟨_, [some 1, some 2, some 3], rfl, by decide, by decide⟩, by
        intro h'; have := mixed_has h'; revert this; simp⟩ hg)
  obtain ⟨r1, r2, r3⟩ := hres st' happ
  refine ⟨t, st', by rw [ht]; rfl, happ, ?_, ?_, ?_, ?_⟩
  · intro i hi
    have : Child mixed'.now (some 10) (some i) := by
      simp only [List.mem_cons, List.not_mem_nil, or_false] at hi
      rcases hi with rfl | rfl | rfl | rfl
      · exact ⟨1, [some 1, some 5], by decide, by decide⟩
      · exact ⟨1, [some 1, some 5], by decide, by decide⟩
      · exact ⟨2, [some 4, some 2], by decide, by decide⟩
      · exact ⟨2, [some 4, some 2], by decide, by decide⟩
    have := r1 (some i) (some 10) _ hr this (hrow _ _)
    rw [hid] at this
    exact this
  · exact r1 (some 10) none _ .root ⟨0, [some 10], by decide, by decide⟩ (hrow _ _)
  · refine r2 (some 3) (some 10) _ (Or.inl ⟨⟨1, hr, ⟨[some 1, some 5], by decide⟩, ⟨_, [some 1, some 2, some 3], rfl, by decide, by decide⟩, ?_⟩, ?_⟩) (hrow _ _)
    · intro h'; have := mixed_has h'; revert this; simp
    · rintro ⟨p', k', _, h', _⟩; have := mixed_has h'; revert this; simp
  · intro k hk'
    refine r3 k ?_
    intro n p m hp e
    obtain ⟨x, rfl, _⟩ := mixed_placed hp
    rw [hrow] at e
    simp only [Option.some.injEq] at e
    subst e
    rintro rfl
    apply hk'
    rcases hp with ⟨_, k, h⟩ | h
    · rcases mixed_has h with ⟨_, _, h⟩ | ⟨_, _, h | h⟩ | ⟨_, _, h | h⟩ <;> (simp only [Option.some.injEq] at h; subst h; simp [Model.key])
    · have := (mixed_removed h).1
      simp only [Option.some.injEq] at this
      subst this
      simp [Model.key]

end Demo

open Demo in
/-- **C03 needs the distinct keys**: item 2 is replaced by a fresh object 6 with the same ID. The save inserts the new row before it deletes the old one, so an executor that refuses duplicate keys fails the save;
one that does not would leave no row at all. -/
theorem C03_replaced_by_same_id :
    let attr := fun p => { stdAttr p with id := if p = 6 then 2 else p }
    let s := { orderSt (heapOf [(10, [(1, [1, 6, 3]), (2, [4])])] attr (by decide) (by decide)) with snap := recorded' }
    (persist okEnv stdOpts s).1.isOk = true ∧
    (written (persist okEnv stdOpts s).2.trace).map (fun a => (a.op, a.models)) = [(.insert, [⟨1, 2, 10, 0⟩]), (.delete, [⟨1, 2, 10, 0⟩])] ∧
    (stored.applyAll (written (persist okEnv stdOpts s).2.trace)).isNone = true := by
  refine ⟨?_, ?_, ?_⟩ <;> decide +kernel

end Ddd
