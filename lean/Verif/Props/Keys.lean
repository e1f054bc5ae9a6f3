import Verif.Spec.Keys
import Mathlib.Data.List.Nodup
import Mathlib.Tactic.ByContra
/-!
# C111: primary keys in the MySQL executor
-/
set_option linter.unusedSimpArgs false
set_option linter.unusedVariables false
set_option linter.unnecessarySeqFocus false
namespace Ddd.Keys

/-! ## insert -/

theorem stored_whole {s : Schema} (hv : Valid s) (t : Table) {m : Mod} (h : Whole s m) : stored s t m = m.vals := by
  unfold stored
  split
  · rename_i a ha
    rw [if_neg (h a (hv.2 a ha))]
  · rfl

theorem at_snoc (s : Schema) (t : Table) (r : Rec) (h : s.key r ∉ t.map s.key) (k : List Nat) : s.at (t ++ [r]) k = if s.key r = k then some r else s.at t k := by
  unfold Schema.at
  rw [List.find?_append]
  by_cases hk : s.key r = k
  · have : t.find? (fun r => decide (s.key r = k)) = none := by
      rw [List.find?_eq_none]
      intro x hx
      simp only [decide_eq_true_eq]
      intro he
      exact h (List.mem_map.2 ⟨x, hx, by rw [he, hk]⟩)
    simp [this, hk]
  · simp [hk]

theorem at_none (s : Schema) (t : Table) (k : List Nat) : s.at t k = none ↔ k ∉ t.map s.key := by
  unfold Schema.at
  rw [List.find?_eq_none]
  simp

theorem insertRows_ok {s : Schema} (hv : Valid s) : ∀ (ms : List Mod) (t t' : Table), (∀ m ∈ ms, Whole s m) → Keyed s t → insertRows s t ms = some t' →
    Keyed s t' ∧ ∀ k, s.at t' k = match ms.find? (fun m => s.key m.vals = k) with | some m => some m.vals | none => s.at t k := by
  intro ms
  induction ms with
  | nil => intro t t' _ hk h; simp [insertRows] at h; subst h; exact ⟨hk, fun k => rfl⟩
  | cons m ms ih =>
    intro t t' hw hk h
    simp only [insertRows, stored_whole hv t (hw m (by simp))] at h
    split at h
    · simp at h
    · rename_i hn
      have hk' : Keyed s (t ++ [m.vals]) := by
        unfold Keyed
        rw [List.map_append, List.nodup_append]
        refine ⟨hk, by simp, ?_⟩
        intro a ha b hb
        simp only [List.map_cons, List.map_nil, List.mem_singleton] at hb
        subst hb
        intro e; subst e; exact hn ha
      obtain ⟨h1, h2⟩ := ih _ _ (fun m' hm => hw m' (by simp [hm])) hk' h
      refine ⟨h1, fun k => ?_⟩
      rw [h2, at_snoc s t _ hn]
      by_cases hkk : s.key m.vals = k
      · -- the key of `m` is new, so no later model has it
        have hno : ms.find? (fun m => decide (s.key m.vals = k)) = none := by
          by_contra hne
          obtain ⟨x, hx⟩ := Option.ne_none_iff_exists'.1 hne
          have hxm := List.mem_of_find?_eq_some hx
          have hxk := List.find?_some hx
          simp only [decide_eq_true_eq] at hxk
          -- inserting `x` would have failed
          have : ∀ (ms : List Mod) (t t' : Table), (∀ m ∈ ms, Whole s m) → k ∈ t.map s.key → x ∈ ms → insertRows s t ms ≠ some t' := by
            intro ms
            induction ms with
            | nil => intro _ _ _ _ hx; simp at hx
            | cons y ys ihy =>
              intro t t' hw hkt hx h
              simp only [insertRows, stored_whole hv t (hw y (by simp))] at h
              split at h
              · simp at h
              · rcases List.mem_cons.1 hx with rfl | hx
                · rename_i hn'; exact hn' (hxk ▸ hkt)
                · exact ihy _ _ (fun m' hm => hw m' (by simp [hm])) (by simp only [List.map_append, List.mem_append]; exact .inl hkt) hx h
          exact this ms _ _ (fun m' hm => hw m' (by simp [hm])) (by simp [hkk]) hxm h
        simp [hno, hkk]
      · simp [List.find?_cons, hkk]

theorem insertRows_iff {s : Schema} (hv : Valid s) : ∀ (ms : List Mod) (t : Table), (∀ m ∈ ms, Whole s m) → (insertRows s t ms = none ↔ Clash s t ms) := by
  intro ms
  induction ms with
  | nil => intro t _; simp [insertRows, Clash]
  | cons m ms ih =>
    intro t hw
    have hw' : ∀ m' ∈ ms, Whole s m' := fun m' hm => hw m' (by simp [hm])
    simp only [insertRows, stored_whole hv t (hw m (by simp))]
    by_cases hn : s.key m.vals ∈ t.map s.key
    · rw [if_pos hn]
      simp only [true_iff]
      exact .inr ⟨m, by simp, fun h => (at_none s t _).1 h hn⟩
    · rw [if_neg hn, ih _ hw']
      unfold Clash
      have hat : ∀ k, s.at (t ++ [m.vals]) k ≠ none ↔ (s.key m.vals = k ∨ s.at t k ≠ none) := by
        intro k
        rw [at_snoc s t _ hn]
        by_cases hk : s.key m.vals = k <;> simp [hk]
      have hm : ¬ s.at t (s.key m.vals) ≠ none := by
        intro h; exact h ((at_none s t _).2 hn)
      simp only [hat, List.map_cons, List.nodup_cons, List.mem_cons, exists_eq_or_imp, hm, false_or, List.mem_map]
      constructor
      · rintro (h | ⟨x, hx, h | h⟩)
        · exact .inl fun hh => h hh.2
        · exact .inl fun hh => hh.1 ⟨x, hx, h.symm⟩
        · exact .inr ⟨x, hx, h⟩
      · rintro (h | ⟨x, hx, h⟩)
        · by_cases hd : (ms.map fun m => s.key m.vals).Nodup
          · by_cases he : ∃ a ∈ ms, s.key a.vals = s.key m.vals
            · obtain ⟨a, ha, hk⟩ := he
              exact .inr ⟨a, ha, .inl hk.symm⟩
            · exact absurd ⟨he, hd⟩ h
          · exact .inl hd
        · exact .inr ⟨x, hx, .inr h⟩

/-! ## update -/

theorem at_map (s : Schema) (t : Table) (k : List Nat) (f : Rec → Rec) (hf : ∀ r, s.key (f r) = s.key r) : s.at (t.map f) k = (s.at t k).map f := by
  unfold Schema.at
  induction t with
  | nil => rfl
  | cons r t ih => simp only [List.map_cons, List.find?_cons, hf]; split <;> simp_all

theorem keyed_map {s : Schema} {t : Table} (f : Rec → Rec) (hf : ∀ r, s.key (f r) = s.key r) (h : Keyed s t) : Keyed s (t.map f) := by
  unfold Keyed at *
  rw [List.map_map]
  have : s.key ∘ f = s.key := funext hf
  rw [this]; exact h

theorem key_eq_iff (s : Schema) (r r' : Rec) : s.key r = s.key r' ↔ ∀ c ∈ s.pk, r c = r' c := by
  simp [Schema.key, List.map_inj_left]

theorem key_overwrite (s : Schema) (m prev r : Rec) : s.key (overwrite s m prev r) = s.key r := by
  rw [key_eq_iff]
  intro c hc
  simp [overwrite, hc]

theorem updateOne_whole {s : Schema} (hne : s.pk ≠ []) (t : Table) (m : Mod) (prev : Rec) (hw : Whole s m) :
    updateOne s t m prev = (t.map fun r => if s.key r = s.key m.vals then overwrite s m.vals prev r else r, none) := by
  have hwh : (s.pk.filter fun c => decide (m.vals c ≠ 0)) = s.pk := List.filter_eq_self.2 fun c hc => by simpa using hw c hc
  have hid : ∀ r : Rec, (∀ c ∈ s.cols, m.vals c ≠ prev c → c ∈ s.pk) → overwrite s m.vals prev r = r := by
    intro r h
    funext c
    unfold overwrite
    rw [if_neg]
    rintro ⟨h1, h2, h3⟩
    exact h3 (h c h1 h2)
  have hnil : (∀ c ∈ s.cols, m.vals c ≠ prev c → c ∈ s.pk) → (t.map fun r => if s.key r = s.key m.vals then overwrite s m.vals prev r else r) = t := by
    intro h
    conv_rhs => rw [← List.map_id t]
    apply List.map_congr_left
    intro r _
    rw [hid r h]; simp
  unfold updateOne
  split
  · rename_i hc
    rw [hnil]
    intro c h1 h2
    have : c ∈ changed s m.vals prev := List.mem_filter.2 ⟨h1, by simpa using h2⟩
    rw [hc] at this; simp at this
  · unfold updateStmt
    split
    · rename_i hc
      rw [hnil]
      intro c h1 h2
      by_contra h3
      have : c ∈ (changed s m.vals prev).filter (fun c => decide (c ∉ s.pk)) := List.mem_filter.2 ⟨List.mem_filter.2 ⟨h1, by simpa using h2⟩, by simpa using h3⟩
      rw [hc] at this; simp at this
    · rw [hwh, if_neg hne]
      simp only [Prod.mk.injEq, and_true]
      apply List.map_congr_left
      intro r _
      have : (s.pk.all fun c => decide (r c = m.vals c)) = true ↔ s.key r = s.key m.vals := by rw [key_eq_iff]; simp
      by_cases hk : s.key r = s.key m.vals
      · rw [if_pos (this.2 hk), if_pos hk]
        funext c
        unfold overwrite changed
        simp only [List.mem_filter, decide_eq_true_eq, and_assoc]
      · rw [if_neg (fun h => hk (this.1 h)), if_neg hk]

theorem update_ok {s : Schema} (hv : Valid s) : ∀ (ps : List (Mod × Rec)) (t : Table), (∀ p ∈ ps, Whole s p.1) → Keyed s t →
    (update s t ps).2 = none ∧ Keyed s (update s t ps).1 ∧ s.at (update s t ps).1 = wanted s (.update ps) (s.at t) := by
  intro ps
  induction ps with
  | nil => intro t _ h; refine ⟨rfl, h, ?_⟩; funext k; simp [update, wanted]
  | cons p ps ih =>
    intro t hw h
    obtain ⟨m, prev⟩ := p
    have hw' : ∀ p ∈ ps, Whole s p.1 := fun p hp => hw p (by simp [hp])
    have hf : ∀ r, s.key ((fun r => if s.key r = s.key m.vals then overwrite s m.vals prev r else r) r) = s.key r := by
      intro r; dsimp only; split
      · exact key_overwrite ..
      · rfl
    simp only [update, updateOne_whole hv.1 t m prev (hw (m, prev) (by simp))]
    obtain ⟨h1, h2, h3⟩ := ih _ hw' (keyed_map _ hf h)
    refine ⟨h1, h2, ?_⟩
    rw [h3]
    funext k
    simp only [wanted]
    rw [at_map s t k _ hf, Option.map_map]
    cases hr : s.at t k with
    | none => rfl
    | some r =>
      have hrk : s.key r = k := by simpa using List.find?_some hr
      simp only [Option.map_some, Function.comp_apply, hrk, Option.some.injEq]
      by_cases hm : k = s.key m.vals
      · simp [hm, List.filter_cons]
      · have hm' : ¬ s.key m.vals = k := fun h => hm h.symm
        simp [List.filter_cons, hm', hm]

/-! ## delete -/

theorem at_filter (s : Schema) (t : Table) (k : List Nat) (p : Rec → Bool) (q : List Nat → Bool) (hq : ∀ r, p r = q (s.key r)) : s.at (t.filter p) k = if q k then s.at t k else none := by
  unfold Schema.at
  induction t with
  | nil => simp
  | cons r t ih =>
    simp only [List.filter_cons, hq r]
    by_cases hk : s.key r = k
    · subst hk
      by_cases h : q (s.key r) = true
      · simp [h]
      · simp only [h, if_false] at ih ⊢
        simpa using ih
    · by_cases h : q (s.key r) = true
      · simp only [h, if_true, List.find?_cons, hk, decide_false]
        exact ih
      · simp only [h, List.find?_cons, hk, decide_false]
        exact ih

theorem keyed_filter {s : Schema} {t : Table} (p : Rec → Bool) (h : Keyed s t) : Keyed s (t.filter p) := by
  unfold Keyed at *
  exact h.sublist (List.Sublist.map _ List.filter_sublist)

theorem deleteLoop_ok {s : Schema} (hv : Valid s) : ∀ (ms : List Mod) (t : Table), (∀ m ∈ ms, Whole s m) → Keyed s t →
    (deleteLoop s t ms).2 = none ∧ Keyed s (deleteLoop s t ms).1 ∧ s.at (deleteLoop s t ms).1 = wanted s (.delete ms) (s.at t) := by
  intro ms
  induction ms with
  | nil => intro t _ h; refine ⟨rfl, h, ?_⟩; funext k; simp [deleteLoop, wanted]
  | cons m ms ih =>
    intro t hw h
    have hnz : ¬ (s.pk.all fun c => decide (m.vals c = 0)) = true := by
      obtain ⟨c, hc⟩ := List.exists_mem_of_ne_nil _ hv.1
      intro hall
      have := List.all_eq_true.1 hall c hc
      simp only [decide_eq_true_eq] at this
      exact hw m (by simp) c hc this
    simp only [deleteLoop, deleteOne, if_neg hnz]
    obtain ⟨h1, h2, h3⟩ := ih _ (fun m' hm => hw m' (by simp [hm])) (keyed_filter (fun r => decide (s.key r ≠ s.key m.vals)) h)
    refine ⟨h1, h2, ?_⟩
    rw [h3]
    funext k
    simp only [wanted, List.map_cons, List.mem_cons]
    rw [at_filter s t k _ (fun k => decide (k ≠ s.key m.vals)) (fun r => rfl)]
    by_cases hk : k = s.key m.vals <;> by_cases hk' : k ∈ ms.map (fun m => s.key m.vals) <;> simp [hk, hk']

theorem delete_ok {text : Nat → Nat} (hinj : ∀ a b, text a = text b → a = b) {s : Schema} (hv : Valid s) (ms : List Mod) (t : Table) (hw : ∀ m ∈ ms, Whole s m ∧ Named text s m) (h : Keyed s t) :
    (delete text s t ms).2 = none ∧ Keyed s (delete text s t ms).1 ∧ s.at (delete text s t ms).1 = wanted s (.delete ms) (s.at t) := by
  unfold delete
  split
  · rename_i c hc
    refine ⟨rfl, keyed_filter _ h, ?_⟩
    funext k
    have hkey : ∀ r, s.key r = [r c] := fun r => by simp [Schema.key, hc]
    rw [at_filter s t k _ (fun k => decide (k ∉ ms.map (fun m => s.key m.vals)))]
    · simp only [wanted]
      by_cases hk : k ∈ ms.map (fun m => s.key m.vals) <;> simp only [hk, not_true, not_false_iff, decide_true, decide_false, if_true, if_false] <;> simp
    · intro r
      rw [hkey]
      congr 1
      simp only [List.mem_map, hkey]
      apply propext
      constructor
      · rintro hn ⟨m, hm, he⟩
        simp only [List.cons.injEq, and_true] at he
        exact hn ⟨m, hm, by rw [(hw m hm).2 c hc, he]⟩
      · rintro hn ⟨m, hm, he⟩
        rw [(hw m hm).2 c hc] at he
        exact hn ⟨m, hm, by rw [hinj _ _ he]⟩
  · exact deleteLoop_ok hv ms t (fun m hm => (hw m hm).1) h

/-! ## the claim -/

/-- **C111** A proper action does what it should to exactly the rows with the keys of its models, and keeps keys unique. It fails only if it is an insert that meets an existing key, always does then, and then has no effect. -/
theorem C111_exec {text : Nat → Nat} (hinj : ∀ a b, text a = text b → a = b) {s : Schema} (hv : Valid s) {t : Table} (hk : Keyed s t) {a : Action} (ha : Proper text s a) :
    ((exec text s t a).2 = none ∧ Keyed s (exec text s t a).1 ∧ s.at (exec text s t a).1 = wanted s a (s.at t) ∧ ∀ ms, a = .insert ms → ¬ Clash s t ms) ∨
      (exec text s t a = (t, some .duplicate) ∧ ∃ ms, a = .insert ms ∧ Clash s t ms) := by
  cases a with
  | insert ms =>
    simp only [exec, insert]
    cases h : insertRows s t ms with
    | none => exact .inr ⟨rfl, ms, rfl, (insertRows_iff hv ms t ha).1 h⟩
    | some t' =>
      obtain ⟨h1, h2⟩ := insertRows_ok hv ms t t' ha hk h
      refine .inl ⟨rfl, h1, funext h2, ?_⟩
      intro ms' e hc
      simp only [Action.insert.injEq] at e
      subst e
      rw [(insertRows_iff hv _ t ha).2 hc] at h
      simp at h
  | update ps =>
    obtain ⟨h1, h2, h3⟩ := update_ok hv ps t ha hk
    exact .inl ⟨h1, h2, h3, by simp⟩
  | delete ms =>
    obtain ⟨h1, h2, h3⟩ := delete_ok hinj hv ms t ha hk
    exact .inl ⟨h1, h2, h3, by simp⟩

/-- **C111** The actions of a command: if no error is reported each row is what the actions should make of it; an error means that an insert met an existing key, and nothing after the actions before it happened. -/
theorem C111_run_partial {text : Nat → Nat} (hinj : ∀ a b, text a = text b → a = b) {s : Schema} (hv : Valid s) (as : List Action) : ∀ {t : Table}, Keyed s t → (∀ a ∈ as, Proper text s a) →
    Keyed s (execAll text s t as).1 ∧
    ((execAll text s t as).2 = none → s.at (execAll text s t as).1 = wantedAll s as (s.at t)) ∧
    ∀ e, (execAll text s t as).2 = some e → e = .duplicate ∧ ∃ as1 ms as2, as = as1 ++ .insert ms :: as2 ∧ s.at (execAll text s t as).1 = wantedAll s as1 (s.at t) ∧ Clash s (execAll text s t as).1 ms := by
  induction as with
  | nil => intro t hk _; exact ⟨hk, fun _ => rfl, by simp [execAll]⟩
  | cons a as ih =>
    intro t hk ha
    rcases C111_exec hinj hv hk (ha a (by simp)) with ⟨h1, h2, h3, _⟩ | ⟨h1, ms, h2, h3⟩
    · have he : exec text s t a = ((exec text s t a).1, none) := Prod.ext rfl h1
      have hx : execAll text s t (a :: as) = execAll text s (exec text s t a).1 as := by
        conv_lhs => unfold execAll
        rw [he]
      rw [hx]
      obtain ⟨g1, g2, g3⟩ := ih h2 fun b hb => ha b (by simp [hb])
      refine ⟨g1, fun hn => ?_, fun e hn => ?_⟩
      · rw [g2 hn, h3]; rfl
      · obtain ⟨k1, as1, ms, as2, k2, k3, k4⟩ := g3 e hn
        exact ⟨k1, a :: as1, ms, as2, by rw [k2]; rfl, by rw [k3, h3]; rfl, k4⟩
    · have hx : execAll text s t (a :: as) = (t, some .duplicate) := by
        unfold execAll
        rw [h1]
      rw [hx]
      refine ⟨hk, by simp, fun e hn => ?_⟩
      simp only [Option.some.injEq] at hn
      exact ⟨hn.symm, [], ms, as, by rw [h2]; rfl, rfl, h3⟩

/-- **C111** (exact) An update can reach rows of other entities, in some table, exactly if some but not all key fields of the model are zero and a field outside the key differs. -/
theorem C111_update_iff (s : Schema) (m : Mod) (prev : Rec) :
    (∀ t, Keyed s t → ∀ k, k ≠ s.key m.vals → s.at (updateOne s t m prev).1 k = s.at t k) ↔
      ¬ ((∃ c ∈ s.pk, m.vals c = 0) ∧ (∃ c ∈ s.pk, m.vals c ≠ 0) ∧ ∃ c ∈ s.cols, m.vals c ≠ prev c ∧ c ∉ s.pk) := by
  constructor
  · rintro h ⟨⟨z, hz, hz0⟩, ⟨n, hn, hn0⟩, ⟨c, hc, hcd, hcp⟩⟩
    let r : Rec := fun x => if x ∈ s.pk then (if m.vals x = 0 then 1 else m.vals x) else m.vals x + 1
    have hne : s.key r ≠ s.key m.vals := by
      intro e
      have := (key_eq_iff s r m.vals).1 e z hz
      simp [r, hz, hz0] at this
    have h1 := h [r] (by simp [Keyed]) (s.key r) hne
    have hcm : c ∈ (changed s m.vals prev).filter (fun c => decide (c ∉ s.pk)) := List.mem_filter.2 ⟨List.mem_filter.2 ⟨hc, by simpa using hcd⟩, by simpa using hcp⟩
    have hch : changed s m.vals prev ≠ [] := by intro e; rw [e] at hcm; simp at hcm
    have hset : (changed s m.vals prev).filter (fun c => decide (c ∉ s.pk)) ≠ [] := by intro e; rw [e] at hcm; simp at hcm
    have hwh : (s.pk.filter fun c => decide (m.vals c ≠ 0)) ≠ [] := by
      intro e
      have : n ∈ s.pk.filter fun c => decide (m.vals c ≠ 0) := List.mem_filter.2 ⟨hn, by simpa using hn0⟩
      rw [e] at this; simp at this
    have hall : ((s.pk.filter fun c => decide (m.vals c ≠ 0)).all fun c => decide (r c = m.vals c)) = true := by
      rw [List.all_eq_true]
      intro x hx
      obtain ⟨hx1, hx2⟩ := List.mem_filter.1 hx
      simp only [ne_eq, decide_not, Bool.not_eq_true', decide_eq_false_iff_not] at hx2
      simp [r, hx1, hx2]
    unfold updateOne updateStmt at h1
    rw [if_neg hch, if_neg hset, if_neg hwh] at h1
    simp only [List.map_cons, List.map_nil, if_pos hall] at h1
    rw [show s.at [r] (s.key r) = some r from by simp [Schema.at]] at h1
    have h2 := List.mem_of_find?_eq_some (show List.find? _ _ = some r from h1)
    simp only [List.mem_singleton] at h2
    have h3 := congrFun h2 c
    simp only [hcm, if_true] at h3
    simp [r, hcp] at h3
  · intro hno t hk k hkm
    by_cases hset : (changed s m.vals prev).filter (fun c => decide (c ∉ s.pk)) = []
    · unfold updateOne updateStmt
      split
      · rfl
      · rfl
    · by_cases hwh : (s.pk.filter fun c => decide (m.vals c ≠ 0)) = []
      · unfold updateOne updateStmt
        split
        · rfl
        · rfl
      · obtain ⟨n, hn⟩ := List.exists_mem_of_ne_nil _ hwh
        obtain ⟨hn1, hn2⟩ := List.mem_filter.1 hn
        obtain ⟨c, hc⟩ := List.exists_mem_of_ne_nil _ hset
        obtain ⟨hc1, hc2⟩ := List.mem_filter.1 hc
        obtain ⟨hc3, hc4⟩ := List.mem_filter.1 hc1
        simp only [decide_eq_true_eq] at hn2 hc2 hc4
        have hw : Whole s m := fun z hz hz0 => hno ⟨⟨z, hz, hz0⟩, ⟨n, hn1, hn2⟩, ⟨c, hc3, hc4, hc2⟩⟩
        have hf : ∀ r, s.key ((fun r => if s.key r = s.key m.vals then overwrite s m.vals prev r else r) r) = s.key r := by
          intro r; dsimp only; split
          · exact key_overwrite ..
          · rfl
        rw [updateOne_whole (fun e => by rw [e] at hn1; simp at hn1) t m prev hw]
        dsimp only
        rw [at_map s t k _ hf]
        cases hr : s.at t k with
        | none => rfl
        | some r =>
          have hrk : s.key r = k := by simpa using List.find?_some hr
          simp [hrk, hkm]

/-- **C111** (exact) A delete from a table with one key column does what it should, in every table, exactly if the texts `GetID` answers are those of the keys of the models and of no other key. -/
theorem C111_delete_iff (text : Nat → Nat) (s : Schema) (c : Nat) (hc : s.pk = [c]) (ms : List Mod) :
    (∀ t, Keyed s t → s.at (delete text s t ms).1 = wanted s (.delete ms) (s.at t)) ↔ ∀ v, text v ∈ ms.map Mod.getID ↔ ∃ m ∈ ms, m.vals c = v := by
  have hkey : ∀ r, s.key r = [r c] := fun r => by simp [Schema.key, hc]
  have hdel : ∀ t, (delete text s t ms).1 = t.filter fun r => decide (text (r c) ∉ ms.map Mod.getID) := by intro t; unfold delete; rw [hc]
  have hat : ∀ t v, s.at (delete text s t ms).1 [v] = if text v ∈ ms.map Mod.getID then none else s.at t [v] := by
    intro t v
    rw [hdel, at_filter s t [v] _ (fun k => decide (text (k.headD 0) ∉ ms.map Mod.getID)) (fun r => by rw [hkey]; rfl)]
    by_cases h : text v ∈ ms.map Mod.getID <;> simp only [List.headD_cons, h, not_true, not_false_iff, decide_true, decide_false, if_true, if_false] <;> simp
  have hmem : ∀ v, [v] ∈ ms.map (fun m => s.key m.vals) ↔ ∃ m ∈ ms, m.vals c = v := by intro v; simp [hkey]
  constructor
  · intro h v
    have h1 := congrFun (h [fun _ => v] (by simp [Keyed])) [v]
    have h2 : s.at [fun _ => v] [v] = some fun _ => v := by simp [Schema.at, hkey]
    rw [hat, h2] at h1
    simp only [wanted] at h1
    rw [h2] at h1
    rw [← hmem]
    by_cases ha : text v ∈ ms.map Mod.getID <;> by_cases hb : [v] ∈ ms.map (fun m => s.key m.vals) <;> simp only [ha, hb, if_true, if_false] at h1 ⊢ <;> simp at h1
  · intro h t _
    funext k
    by_cases hk : ∃ v, k = [v]
    · obtain ⟨v, rfl⟩ := hk
      rw [hat]
      simp only [wanted]
      by_cases hv : text v ∈ ms.map Mod.getID
      · rw [if_pos hv, if_pos ((hmem v).2 ((h v).1 hv))]
      · rw [if_neg hv, if_neg (fun hh => hv ((h v).2 ((hmem v).1 hh)))]
    · have hnone : ∀ t, s.at t k = none := by
        intro t
        rw [at_none]
        intro hh
        obtain ⟨r, _, hr⟩ := List.mem_map.1 hh
        exact hk ⟨r c, by rw [← hr, hkey]⟩
      rw [hnone]
      simp only [wanted]
      split
      · rfl
      · exact (hnone t).symm

/-- **C111** An update whose model has a key that is not in the table (the key fields of the entity have changed, for example its parent) is lost without an error. -/
theorem C111_lost {s : Schema} (hv : Valid s) (t : Table) (m : Mod) (prev : Rec) (hw : Whole s m) (hno : s.at t (s.key m.vals) = none) : updateOne s t m prev = (t, none) := by
  rw [updateOne_whole hv.1 t m prev hw]
  simp only [Prod.mk.injEq, and_true]
  conv_rhs => rw [← List.map_id t]
  apply List.map_congr_left
  intro r hr
  rw [if_neg]
  · rfl
  · intro e
    exact (at_none s t _).1 hno (List.mem_map.2 ⟨r, hr, e⟩)

/-! ## concrete tables -/

/-- column 0: auto-increment key, column 1: the ID of the entity, column 2: a value -/
def autoKey : Schema := { cols := [0, 1, 2], pk := [0], auto := some 0 }
/-- columns 0 and 1: key (parent and line number, say), column 2: a value -/
def twoKeys : Schema := { cols := [0, 1, 2], pk := [0, 1], auto := none }
/-- a record from a list of values -/
def rec (l : List Nat) : Rec := fun c => l.getD c 0
/-- the text of a number, as a number -/
def plain : Nat → Nat := id

/-- **C111** (it is not so for every table) With an auto-increment key and the ID of the entity in another column: the row of entity 77 is created with key 1; changing the entity fails, deleting it leaves the row and deletes the row whose key
happens to be 77. -/
theorem C111_auto_key : let e : Mod := ⟨rec [0, 77, 5], 77⟩
    let e' : Mod := ⟨rec [0, 77, 6], 77⟩
    (insert autoKey [] [e]).2 = none ∧ ((insert autoKey [] [e]).1.map fun r => [r 0, r 1, r 2]) = [[1, 77, 5]] ∧
      (updateOne autoKey (insert autoKey [] [e]).1 e' (rec [0, 77, 5])).2 = some .missingWhere ∧
      ((delete plain autoKey [rec [1, 77, 5], rec [77, 3, 4]] [e]).1.map fun r => [r 0, r 1, r 2]) = [[1, 77, 5]] := by
  refine ⟨by decide, by decide, by decide, by decide⟩

/-- **C111** (it is not so for every table) Key of two columns, line 0 of parent 9: changing it writes all lines of parent 9; deleting it works. -/
theorem C111_zero_line : let m : Mod := ⟨rec [9, 0, 5], 1⟩
    Keyed twoKeys [rec [9, 0, 4], rec [9, 1, 7]] ∧
      ((updateOne twoKeys [rec [9, 0, 4], rec [9, 1, 7]] m (rec [9, 0, 4])).1.map fun r => [r 0, r 1, r 2]) = [[9, 0, 5], [9, 1, 5]] ∧
      ((delete plain twoKeys [rec [9, 0, 4], rec [9, 1, 7]] [m]).1.map fun r => [r 0, r 1, r 2]) = [[9, 1, 7]] := by
  refine ⟨by unfold Keyed; decide, by decide, by decide⟩

/-- hypotheses of `C111_run_partial`: insert, update and delete in a table with two key columns -/
example : Valid twoKeys ∧ Keyed twoKeys [rec [9, 1, 4], rec [9, 2, 7]] ∧
    ∀ a ∈ [Action.insert [⟨rec [8, 1, 3], 0⟩], .update [(⟨rec [9, 1, 5], 0⟩, rec [9, 1, 4])], .delete [⟨rec [9, 2, 7], 0⟩]], Proper plain twoKeys a := by
  refine ⟨⟨by decide, by simp [twoKeys]⟩, by unfold Keyed; decide, ?_⟩
  simp [Proper, Whole, Named, twoKeys, rec]
example : ((execAll plain twoKeys [rec [9, 1, 4], rec [9, 2, 7]] [Action.insert [⟨rec [8, 1, 3], 0⟩], .update [(⟨rec [9, 1, 5], 0⟩, rec [9, 1, 4])], .delete [⟨rec [9, 2, 7], 0⟩]]).1.map fun r => [r 0, r 1, r 2])
    = [[9, 1, 5], [8, 1, 3]] := by decide
/-- … and in a table with one key column, the ID -/
example : let s : Schema := { cols := [0, 1], pk := [0], auto := none }
    Valid s ∧ (∀ a ∈ [Action.delete [⟨rec [3, 1], 3⟩, ⟨rec [4, 1], 4⟩]], Proper plain s a) ∧ ((execAll plain s [rec [3, 1], rec [4, 1], rec [5, 1]] [Action.delete [⟨rec [3, 1], 3⟩, ⟨rec [4, 1], 4⟩]]).1.map fun r => [r 0, r 1]) = [[5, 1]] := by
  refine ⟨⟨by decide, by simp⟩, ?_, by decide⟩
  simp [Proper, Whole, Named, rec, plain]
/-- hypotheses of `C111_lost`: a line moved from parent 9 to parent 8 -/
example : Whole twoKeys ⟨rec [8, 1, 4], 0⟩ ∧ twoKeys.at [rec [9, 1, 4]] (twoKeys.key (rec [8, 1, 4])) = none := by
  refine ⟨by simp [Whole, twoKeys, rec], by rw [at_none]; decide⟩

end Ddd.Keys
