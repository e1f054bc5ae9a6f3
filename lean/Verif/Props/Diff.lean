import Verif.Spec.Diff
/-!
# C57, C58: model diff and updates
-/
set_option linter.unusedVariables false
set_option linter.unusedSimpArgs false
namespace Ddd.Diff

mutual
theorem eq_of_zero : ∀ {v w : Val}, SameTy v w → v.isZero = true → w.isZero = true → v = w
  | .leaf a, .leaf b, _, h1, h2 => by simp only [Val.isZero, decide_eq_true_eq] at h1 h2; rw [h1, h2]
  | .nil, .nil, _, _, _ => rfl
  | .nil, .ref (.struct _), _, _, h2 => by simp [Val.isZero] at h2
  | .ref (.struct _), .nil, _, h1, _ => by simp [Val.isZero] at h1
  | .ref (.struct _), .ref (.struct _), _, h1, _ => by simp [Val.isZero] at h1
  | .struct fs, .struct gs, h, h1, h2 => by
    simp only [SameTy] at h
    simp only [Val.isZero] at h1 h2
    rw [eqs_of_zero h h1 h2]
theorem eqs_of_zero : ∀ {fs gs : Flds}, SameTys fs gs → fs.isZero = true → gs.isZero = true → fs = gs
  | .nil, .nil, _, _, _ => rfl
  | .cons f v fs, .cons g w gs, h, h1, h2 => by
    simp only [SameTys] at h
    simp only [Flds.isZero, Bool.and_eq_true] at h1 h2
    obtain ⟨rfl, hv, hfs⟩ := h
    rw [eq_of_zero hv h1.1 h2.1, eqs_of_zero hfs h1.2 h2.2]
end

mutual
/-- a difference is noticed -/
theorem diffVal_sound (go : Go) : ∀ (v w : Val) (ro canI : Bool), SameTy v w → Steady v w → v ≠ w →
    (diffVal go ro canI v w).2 = true ∧ (v.isStruct = true → w ≠ .nil → (diffVal go ro canI v w).1 ≠ [])
  | .leaf a, .leaf b, ro, canI, _, _, hne => by
    have hab : a ≠ b := fun h => hne (by rw [h])
    refine ⟨?_, by simp [Val.isStruct]⟩
    simp only [diffVal]
    split
    · omega
    · simp [leafEq, hab]
  | .nil, .nil, _, _, _, _, hne => absurd rfl hne
  | .nil, .ref (.struct _), _, _, _, _, _ => ⟨by simp [diffVal], by simp [Val.isStruct]⟩
  | .ref (.struct _), .nil, _, _, _, _, _ => ⟨by simp [diffVal], fun _ h => absurd rfl h⟩
  | .ref (.struct fs), .ref (.struct gs), ro, canI, h, hs, hne => by
    simp only [SameTy] at h
    simp only [Steady] at hs
    have hfg : fs ≠ gs := fun h => hne (by rw [h])
    have hz : (fs.isZero && gs.isZero) = false := by
      cases hc : fs.isZero && gs.isZero with
      | false => rfl
      | true =>
        simp only [Bool.and_eq_true] at hc
        exact absurd (eqs_of_zero h hc.1 hc.2) hfg
    have := diffFlds_sound go fs gs ro h hs hfg
    simp [diffVal, hz, this]
  | .struct fs, .struct gs, ro, canI, h, hs, hne => by
    simp only [SameTy] at h
    simp only [Steady] at hs
    have hfg : fs ≠ gs := fun h => hne (by rw [h])
    have hz : (fs.isZero && gs.isZero) = false := by
      cases hc : fs.isZero && gs.isZero with
      | false => rfl
      | true =>
        simp only [Bool.and_eq_true] at hc
        exact absurd (eqs_of_zero h hc.1 hc.2) hfg
    have := diffFlds_sound go fs gs ro h hs hfg
    simp [diffVal, hz, this]
theorem diffFlds_sound (go : Go) : ∀ (fs gs : Flds) (ro : Bool), SameTys fs gs → Steadys fs gs → fs ≠ gs → diffFlds go ro fs gs ≠ []
  | .nil, .nil, _, _, _, hne => absurd rfl hne
  | .cons f v fs, .cons g w gs, ro, h, hs, hne => by
    simp only [SameTys] at h
    simp only [Steadys] at hs
    obtain ⟨rfl, hv, hfs⟩ := h
    obtain ⟨hn, hsv, hsf⟩ := hs
    simp only [diffFlds]
    by_cases hvw : v = w
    · have hfg : fs ≠ gs := fun h => hne (by rw [hvw, h])
      simp [diffFlds_sound go fs gs ro hfs hsf hfg]
    · obtain ⟨h1, h2⟩ := diffVal_sound go v w (ro || (!f.exported && !f.anon)) (!ro && f.exported) hv hsv hvw
      rw [if_pos h1]
      split
      · rename_i hc
        simp only [Bool.and_eq_true] at hc
        have hwn : w ≠ .nil := by
          intro hw
          have := (hn hc.2).mpr hw
          rw [this] at hc; simp [Val.isStruct] at hc
        simp [h2 hc.1 hwn]
      · simp
end

/-- what a struct field contributes, when it is taken apart -/
def inner : Val → Option Flds
  | .struct fs => some fs
  | .ref (.struct fs) => some fs
  | _ => none

theorem inner_some {v : Val} : v.isStruct = true ↔ ∃ fs, inner v = some fs := by
  cases v with
  | ref v => cases v <;> simp [Val.isStruct, inner]
  | _ => simp [Val.isStruct, inner]

theorem diffVal_inner (go : Go) {v w : Val} {fs gs : Flds} (ro canI : Bool) (hv : inner v = some fs) (hw : inner w = some gs) (hs : SameTy v w) (hne : fs ≠ gs) :
    (diffVal go ro canI v w).1 = diffFlds go ro fs gs := by
  have hz : SameTys fs gs → (fs.isZero && gs.isZero) = false := by
    intro h
    cases hc : fs.isZero && gs.isZero with
    | false => rfl
    | true =>
      simp only [Bool.and_eq_true] at hc
      exact absurd (eqs_of_zero h hc.1 hc.2) hne
  match v, w, hv, hw, hs with
  | .struct a, .struct b, hv, hw, hs =>
    simp only [inner, Option.some.injEq] at hv hw
    subst hv hw
    simp only [SameTy] at hs
    simp [diffVal, hz hs]
  | .ref (.struct a), .ref (.struct b), hv, hw, hs =>
    simp only [inner, Option.some.injEq] at hv hw
    subst hv hw
    simp only [SameTy] at hs
    simp [diffVal, hz hs]
  | .struct a, .ref (.struct b), _, _, hs => simp [SameTy] at hs
  | .ref (.struct a), .struct b, _, _, hs => simp [SameTy] at hs

/-- the columns of one field -/
def Fld.own (f : Fld) (v : Val) : List (Col × Val) :=
  if f.spread = true then (match v with
    | .leaf a => [(([], f.name), .leaf a)]
    | .nil => []
    | .struct gs => pfx f.pre gs.cols
    | .ref (.struct gs) => pfx f.pre gs.cols
    | v => [(([], f.name), v)]) else [(([], f.name), v)]

theorem cols_cons (f : Fld) (v : Val) (rest : Flds) : (Flds.cons f v rest).cols = f.own v ++ rest.cols := by
  rw [Flds.cols.eq_def]
  simp only [Fld.own]
  cases hf : f.spread with
  | false => simp [hf]
  | true =>
    cases v with
    | ref x => cases x <;> simp [hf]
    | _ => simp [hf]

theorem own_flat {f : Fld} {v : Val} {a : Flds} (hs : f.spread = true) (hv : inner v = some a) : f.own v = pfx f.pre a.cols := by
  match v, hv with
  | .struct b, hv => simp only [inner, Option.some.injEq] at hv; subst hv; simp [Fld.own, hs]
  | .ref (.struct b), hv => simp only [inner, Option.some.injEq] at hv; subst hv; simp [Fld.own, hs]

/-- a difference under the prefix comes from a difference of the same field -/
theorem pfx_lookup (p : List Nat) (a b : List (Col × Val)) (c : Col) (h : (pfx p a).lookup c ≠ (pfx p b).lookup c) :
    ∃ q, c = (p ++ q, c.2) ∧ a.lookup (q, c.2) ≠ b.lookup (q, c.2) := by
  have key : ∀ l : List (Col × Val), ∀ q, c = (p ++ q, c.2) → (pfx p l).lookup c = l.lookup (q, c.2) := by
    intro l q hq
    induction l with
    | nil => rfl
    | cons x l ih =>
      obtain ⟨⟨x1, x2⟩, v⟩ := x
      simp only [pfx, List.map_cons, List.lookup_cons] at ih ⊢
      have : (c == (p ++ x1, x2)) = ((q, c.2) == (x1, x2)) := by
        rw [hq, Bool.eq_iff_iff]; simp
      rw [this]
      cases hc : ((q, c.2) == (x1, x2)) <;> simp [hc]
      exact ih
  have none : ∀ l : List (Col × Val), (∀ q, c ≠ (p ++ q, c.2)) → (pfx p l).lookup c = none := by
    intro l hq
    rw [List.lookup_eq_none_iff]
    intro x hx
    simp only [pfx, List.mem_map] at hx
    obtain ⟨y, _, rfl⟩ := hx
    simp only [beq_eq_false_iff_ne, ne_eq, Bool.not_eq_true, bne_iff_ne]
    intro hc
    exact hq y.1.1 (by rw [hc])
  by_cases hq : ∃ q, c = (p ++ q, c.2)
  · obtain ⟨q, hq⟩ := hq
    exact ⟨q, hq, by rw [← key a q hq, ← key b q hq]; exact h⟩
  · exact absurd (by rw [none a (fun q hh => hq ⟨q, hh⟩), none b (fun q hh => hq ⟨q, hh⟩)]) h

mutual
/-- C57: when no embedded pointer goes from nil to something or back, every column in which the current model differs from the snapshot model is listed, also the columns of embedded structs, at any depth. -/
theorem C57_no_column_missed_partial (go : Go) : ∀ (fs gs : Flds) (ro : Bool), SameTys fs gs → Steadys fs gs → Honests fs → ∀ c, fs.row c ≠ gs.row c → c.2 ∈ diffFlds go ro fs gs
  | .nil, .nil, _, _, _, _, c, hc => absurd rfl hc
  | .cons f v fs, .cons g w gs, ro, h, hs, ho, c, hc => by
    simp only [SameTys] at h
    obtain ⟨rfl, hv, hfs⟩ := h
    simp only [Steadys] at hs
    obtain ⟨hnil, hsv, hsf⟩ := hs
    simp only [Honests] at ho
    obtain ⟨hsp, hov, hof⟩ := ho
    simp only [diffFlds, List.mem_append]
    by_cases hrest : fs.row c = gs.row c
    · left
      simp only [Flds.row, cols_cons, List.lookup_append] at hc hrest
      rw [hrest] at hc
      have hown : (f.own v).lookup c ≠ (f.own w).lookup c := fun hh => hc (by rw [hh])
      have hvw : v ≠ w := by rintro rfl; exact hown rfl
      have hd := diffVal_sound go v w (ro || (!f.exported && !f.anon)) (!ro && f.exported) hv hsv hvw
      rw [if_pos hd.1]
      by_cases hst : v.isStruct = true ∧ f.flat = true
      · have hspread : f.spread = true := by rw [hsp (Or.inl hst.1), hst.2]
        rw [if_pos (by simpa [Fld.flat] using hst)]
        have hwn : w ≠ .nil := fun hw => by have := (hnil hst.2).mpr hw; rw [this] at hst; simp [Val.isStruct] at hst
        exact missed_inner go v w f ro hv hsv hov hst.1 hwn c (fun a b ha hb => by
          rw [← own_flat hspread ha, ← own_flat hspread hb]; exact hown)
      · rw [if_neg (by simpa [Fld.flat] using hst)]
        simp only [List.mem_singleton]
        have hsingle : f.own v = [(([], f.name), v)] ∧ f.own w = [(([], f.name), w)] := by
          by_cases hspread : f.spread = true
          · have hns : v.isStruct = false := by
              cases hvs : v.isStruct with
              | false => rfl
              | true => exact absurd ⟨hvs, by rw [← hsp (Or.inl hvs), hspread]⟩ hst
            match v, w, hv, hns with
            | .leaf _, .leaf _, _, _ => simp [Fld.own, hspread]
            | .nil, .nil, _, _ => exact absurd rfl hvw
            | .nil, .ref (.struct b), _, _ =>
              have hfl : f.flat = true := by rw [← hsp (Or.inr rfl), hspread]
              exact absurd ((hnil hfl).mp rfl) (by simp)
            | .ref (.struct _), _, _, hns => simp [Val.isStruct] at hns
          · simp [Fld.own, hspread]
        rw [hsingle.1, hsingle.2] at hown
        by_contra hname
        apply hown
        have : (c == (([], f.name) : Col)) = false := by
          simp only [beq_eq_false_iff_ne, ne_eq]
          intro hh; exact hname (by rw [hh])
        simp [List.lookup_cons, this]
    · right
      exact C57_no_column_missed_partial go fs gs ro hfs hsf hof c hrest
theorem missed_inner (go : Go) : ∀ (v w : Val) (f : Fld) (ro : Bool), SameTy v w → Steady v w → Honest v → v.isStruct = true → w ≠ .nil →
    ∀ c, (∀ a b, inner v = some a → inner w = some b → (pfx f.pre a.cols).lookup c ≠ (pfx f.pre b.cols).lookup c) →
    c.2 ∈ (diffVal go (ro || (!f.exported && !f.anon)) (!ro && f.exported) v w).1
  | .struct a, .struct b, f, ro, hv, hs, ho, _, _, c, hc => by
    simp only [SameTy] at hv
    simp only [Steady] at hs
    simp only [Honest] at ho
    obtain ⟨q, _, hq⟩ := pfx_lookup _ _ _ _ (hc a b rfl rfl)
    rw [diffVal_inner go _ _ rfl rfl (by simpa [SameTy] using hv) (fun h => hq (by rw [h]))]
    exact C57_no_column_missed_partial go a b _ hv hs ho (q, c.2) hq
  | .ref (.struct a), .ref (.struct b), f, ro, hv, hs, ho, _, _, c, hc => by
    simp only [SameTy] at hv
    simp only [Steady] at hs
    simp only [Honest] at ho
    obtain ⟨q, _, hq⟩ := pfx_lookup _ _ _ _ (hc a b rfl rfl)
    rw [diffVal_inner go _ _ rfl rfl (by simpa [SameTy] using hv) (fun h => hq (by rw [h]))]
    exact C57_no_column_missed_partial go a b _ hv hs ho (q, c.2) hq
  | .ref (.struct a), .nil, _, _, _, _, _, _, h, _, _ => absurd rfl h
end

/-! ## unchanged models (C58) -/

mutual
theorem plains_of_zero (go : Go) : ∀ (fs : Flds) (ro : Bool), fs.isZero = true → Plains go ro fs
  | .nil, _, _ => by simp [Plains]
  | .cons f v fs, ro, h => by
    simp only [Flds.isZero, Bool.and_eq_true] at h
    exact ⟨plain_of_zero go v _ _ h.1, plains_of_zero go fs ro h.2⟩
theorem plain_of_zero (go : Go) : ∀ (v : Val) (ro canI : Bool), v.isZero = true → Plain go ro canI v
  | .leaf a, _, _, h => by simp only [Val.isZero, decide_eq_true_eq] at h; simp [Plain, h]
  | .nil, _, _, _ => by simp [Plain]
  | .ref _, _, _, h => by simp [Val.isZero] at h
  | .struct fs, ro, _, h => by
    simp only [Val.isZero] at h
    simp only [Plain]; exact plains_of_zero go fs ro h
end

theorem same_names (go : Go) {v : Val} (ro canI : Bool) (hv : v.isStruct = true) (h : (diffVal go ro canI v v).2 = true) : (diffVal go ro canI v v).1 ≠ [] := by
  match v, hv with
  | .struct fs, _ =>
    simp only [diffVal] at h ⊢
    split at h
    · simp at h
    · rename_i hz; rw [if_neg hz]; simpa using h
  | .ref (.struct fs), _ =>
    simp only [diffVal] at h ⊢
    split at h
    · simp at h
    · rename_i hz; rw [if_neg hz]; simpa using h

mutual
theorem plain_iff (go : Go) : ∀ (v : Val) (ro canI : Bool), (diffVal go ro canI v v).2 = false ↔ Plain go ro canI v
  | .leaf a, ro, canI => by
    simp only [diffVal, Plain, leafEq]
    by_cases ha : a = 0 <;> cases hc : go.comparable a <;> cases canI <;> simp [ha, hc]
  | .nil, _, _ => by simp [diffVal, Plain]
  | .ref v, ro, canI => by
    have := plain_iff go v ro canI
    simpa [diffVal, Plain] using this
  | .struct fs, ro, canI => by
    have := plains_iff go fs ro
    simp only [diffVal, Plain]
    by_cases hz : fs.isZero = true
    · have := plains_of_zero go fs ro hz
      simp [hz, this]
    · simp [hz, ← this]
theorem plains_iff (go : Go) : ∀ (fs : Flds) (ro : Bool), diffFlds go ro fs fs = [] ↔ Plains go ro fs
  | .nil, _ => by simp [diffFlds, Plains]
  | .cons f v fs, ro => by
    have h1 := plain_iff go v (ro || (!f.exported && !f.anon)) (!ro && f.exported)
    have h2 := plains_iff go fs ro
    have h3 := same_names go (v := v) (ro || (!f.exported && !f.anon)) (!ro && f.exported)
    simp only [diffFlds, Plains, List.append_eq_nil_iff, ← h1, h2]
    refine and_congr_left fun _ => ?_
    cases hd : (diffVal go (ro || (!f.exported && !f.anon)) (!ro && f.exported) v v).2 with
    | false => simp
    | true =>
      simp only [if_true, Bool.true_eq_false, iff_false]
      split
      · rename_i hc
        simp only [Bool.and_eq_true] at hc
        exact h3 hc.1 hd
      · simp
end

/-- C58: comparing a model with an equal snapshot finds no difference exactly when all its values can be compared with themselves. -/
theorem C58_unchanged_iff (go : Go) (fs : Flds) : diffModel go fs (some fs) = [] ↔ Plains go false fs := plains_iff go fs false

/-- C58: an update of models that equal their snapshots issues no SQL and changes nothing, when their values can be compared with themselves. -/
theorem C58_unchanged_no_sql_partial (go : Go) (look : Nat → Option Col) (db : DB) (ms : List Model) (hp : ∀ m ∈ ms, Plains go false m.fields) :
    updateStmts go ms (ms.map some) = [] ∧ updateAll go look db ms (ms.map some) = db := by
  induction ms generalizing db with
  | nil => exact ⟨rfl, rfl⟩
  | cons m ms ih =>
    have hm := (C58_unchanged_iff go m.fields).mpr (hp m (by simp))
    have := fun db => ih db (fun x hx => hp x (by simp [hx]))
    simp [updateStmts, updateAll, updateOne, hm, (this db).1, (this db).2]

/-! ## what is listed did change -/

mutual
/-- C58: only columns that changed are listed (so no other column is written). -/
theorem C58_listed_changed_partial (go : Go) : ∀ (fs gs : Flds) (ro : Bool), SameTys fs gs → Steadys fs gs → Honests fs → Plains go ro fs →
    ∀ n ∈ diffFlds go ro fs gs, ∃ c v w, c.2 = n ∧ (c, v) ∈ fs.cols ∧ (c, w) ∈ gs.cols ∧ v ≠ w
  | .nil, .nil, _, _, _, _, _, n, hn => by simp [diffFlds] at hn
  | .cons f v fs, .cons g w gs, ro, h, hs, ho, hp, n, hn => by
    simp only [SameTys] at h
    obtain ⟨rfl, hv, hfs⟩ := h
    simp only [Steadys] at hs
    obtain ⟨hnil, hsv, hsf⟩ := hs
    simp only [Honests] at ho
    obtain ⟨hsp, hov, hof⟩ := ho
    simp only [Plains] at hp
    simp only [diffFlds, List.mem_append] at hn
    simp only [cols_cons, List.mem_append]
    rcases hn with hn | hn
    · split at hn
      next hd =>
        have hvw : v ≠ w := by
          rintro rfl
          rw [(plain_iff go v _ _).mpr hp.1] at hd
          cases hd
        split at hn
        next hst =>
          simp only [Bool.and_eq_true] at hst
          have hfl : f.flat = true := hst.2
          have hspread : f.spread = true := by rw [hsp (Or.inl hst.1), hfl]
          have hwn : w ≠ .nil := fun hw => by have := (hnil hfl).mpr hw; rw [this] at hst; simp [Val.isStruct] at hst
          obtain ⟨c, a, b, x, y, hc, ha, hb, hx, hy, hxy⟩ := listed_inner go v w _ _ hv hsv hov hp.1 hst.1 hwn n hn
          refine ⟨(f.pre ++ c.1, c.2), x, y, hc, .inl ?_, .inl ?_, hxy⟩
          · rw [own_flat hspread ha]; exact List.mem_map.mpr ⟨(c, x), hx, rfl⟩
          · rw [own_flat hspread hb]; exact List.mem_map.mpr ⟨(c, y), hy, rfl⟩
        next hst =>
          simp only [List.mem_singleton] at hn
          have hst : ¬(v.isStruct = true ∧ f.flat = true) := by simpa [Fld.flat] using hst
          have hsingle : f.own v = [(([], f.name), v)] ∧ f.own w = [(([], f.name), w)] := by
            by_cases hspread : f.spread = true
            · have hns : v.isStruct = false := by
                cases hvs : v.isStruct with
                | false => rfl
                | true => exact absurd ⟨hvs, by rw [← hsp (Or.inl hvs), hspread]⟩ hst
              match v, w, hv, hns with
              | .leaf _, .leaf _, _, _ => simp [Fld.own, hspread]
              | .nil, .nil, _, _ => exact absurd rfl hvw
              | .nil, .ref (.struct b), _, _ =>
                have hfl : f.flat = true := by rw [← hsp (Or.inr rfl), hspread]
                exact absurd ((hnil hfl).mp rfl) (by simp)
              | .ref (.struct _), _, _, hns => simp [Val.isStruct] at hns
            · simp [Fld.own, hspread]
          exact ⟨([], f.name), v, w, hn.symm, .inl (by simp [hsingle.1]), .inl (by simp [hsingle.2]), hvw⟩
      next => simp at hn
    · obtain ⟨c, a, b, hc, ha, hb, hab⟩ := C58_listed_changed_partial go fs gs ro hfs hsf hof hp.2 n hn
      exact ⟨c, a, b, hc, .inr ha, .inr hb, hab⟩
theorem listed_inner (go : Go) : ∀ (v w : Val) (ro canI : Bool), SameTy v w → Steady v w → Honest v → Plain go ro canI v → v.isStruct = true → w ≠ .nil →
    ∀ n ∈ (diffVal go ro canI v w).1, ∃ c a b x y, c.2 = n ∧ inner v = some a ∧ inner w = some b ∧ (c, x) ∈ a.cols ∧ (c, y) ∈ b.cols ∧ x ≠ y
  | .struct a, .struct b, ro, canI, hv, hs, ho, hp, _, _, n, hn => by
    simp only [SameTy] at hv
    simp only [Steady] at hs
    simp only [Honest] at ho
    simp only [Plain] at hp
    simp only [diffVal] at hn
    split at hn
    · simp at hn
    · obtain ⟨c, x, y, hc, hx, hy, hxy⟩ := C58_listed_changed_partial go a b ro hv hs ho hp n hn
      exact ⟨c, a, b, x, y, hc, rfl, rfl, hx, hy, hxy⟩
  | .ref (.struct a), .ref (.struct b), ro, canI, hv, hs, ho, hp, _, _, n, hn => by
    simp only [SameTy] at hv
    simp only [Steady] at hs
    simp only [Honest] at ho
    simp only [Plain] at hp
    simp only [diffVal] at hn
    split at hn
    · simp at hn
    · obtain ⟨c, x, y, hc, hx, hy, hxy⟩ := C58_listed_changed_partial go a b ro hv hs ho hp n hn
      exact ⟨c, a, b, x, y, hc, rfl, rfl, hx, hy, hxy⟩
  | .ref (.struct a), .nil, _, _, _, _, _, _, _, h, _, _ => absurd rfl h
end

/-! ## what an update does to the rows -/

theorem lookup_mem {l : List (Col × Val)} {c : Col} {v : Val} (h : l.lookup c = some v) : (c, v) ∈ l := by
  induction l with
  | nil => simp at h
  | cons x l ih =>
    obtain ⟨c', v'⟩ := x
    rw [List.lookup_cons] at h
    split at h
    · rename_i hb
      simp only [beq_iff_eq] at hb
      simp only [Option.some.injEq] at h
      simp [hb, h]
    · exact List.mem_cons_of_mem _ (ih h)

theorem mem_lookup {l : List (Col × Val)} {c : Col} {v : Val} (hn : (l.map Prod.fst).Nodup) (h : (c, v) ∈ l) : l.lookup c = some v := by
  induction l with
  | nil => simp at h
  | cons x l ih =>
    obtain ⟨c', v'⟩ := x
    simp only [List.map_cons, List.nodup_cons] at hn
    rw [List.lookup_cons]
    rcases List.mem_cons.mp h with h | h
    · simp only [Prod.mk.injEq] at h
      simp [h.1, h.2]
    · have hne : c ≠ c' := by
        rintro rfl
        exact hn.1 (List.mem_map.mpr ⟨(c, v), by assumption, rfl⟩)
      have hb : (c == c') = false := by simpa using hne
      rw [hb]
      exact ih hn.2 (by assumption)

theorem updateCols_row (look : Nat → Option Col) (db : DB) (m : Model) (fields : List Nat) (r : Row) (hr : db m.table m.id = some r) :
    updateCols look db m fields m.table m.id = some (fun c => if some c ∈ fields.map look then m.row c else r c) := by
  simp [updateCols, hr, setRow]

theorem updateOne_row (go : Go) (look : Nat → Option Col) (db : DB) (m p : Model) (r : Row) (hr : db m.table m.id = some r) :
    updateOne go look db m (some (some p)) m.table m.id = some (fun c => if some c ∈ (diffFlds go false m.fields p.fields).map look then m.row c else r c) := by
  simp only [updateOne]
  by_cases hd : diffFlds go false m.fields p.fields = []
  · rw [if_pos (show diffModel go m.fields ((some p).map Model.fields) = [] from hd)]
    simp [hd, hr]
  · rw [if_neg (show ¬diffModel go m.fields ((some p).map Model.fields) = [] from hd)]
    exact updateCols_row look db m _ r hr

/-- An update never touches another row and never creates one. -/
theorem C58_other_rows (go : Go) (look : Nat → Option Col) (db : DB) (m : Model) (p : Option Model) (t i : Nat) (h : ¬(t = m.table ∧ i = m.id)) :
    updateOne go look db m (some p) t i = db t i := by
  simp only [updateOne]
  by_cases hd : diffModel go m.fields (p.map Model.fields) = []
  · rw [if_pos hd]
  · rw [if_neg hd]
    cases hr : db m.table m.id with
    | none => simp only [updateCols, hr]
    | some r => simp only [updateCols, hr, setRow, if_neg h]

theorem C58_missing_row (go : Go) (look : Nat → Option Col) (db : DB) (m : Model) (p : Option Model) (h : db m.table m.id = none) :
    updateOne go look db m (some p) = db := by
  simp only [updateOne]
  split
  · rfl
  · simp [updateCols, h]

/-- C57, C58: whatever the row holds (another command may have changed it since the snapshot), after the update every column this command changed has its current value. -/
theorem C58_changed_written_partial (go : Go) (look : Nat → Option Col) (db : DB) (m p : Model) (r : Row) (hr : db m.table m.id = some r)
    (hty : SameTys m.fields p.fields) (hst : Steadys m.fields p.fields) (hho : Honests m.fields) (hm : Unambiguous look m.fields) (hp : Unambiguous look p.fields) :
    ∃ r', updateOne go look db m (some (some p)) m.table m.id = some r' ∧ ∀ c, m.row c ≠ p.row c → r' c = m.row c := by
  refine ⟨_, updateOne_row go look db m p r hr, ?_⟩
  intro c hc
  have hlist := C57_no_column_missed_partial go m.fields p.fields false hty hst hho c hc
  have hlook : look c.2 = some c := by
    cases h1 : m.row c with
    | some v => exact hm.2 c v (lookup_mem h1)
    | none =>
      cases h2 : p.row c with
      | some v => exact hp.2 c v (lookup_mem h2)
      | none => exact absurd (by rw [h1, h2]) hc
  have : some c ∈ (diffFlds go false m.fields p.fields).map look := List.mem_map.mpr ⟨c.2, hlist, hlook⟩
  simp [this]

/-- C58: and every column this command did not change keeps what is in the row, so a concurrent change of it survives. -/
theorem C58_others_kept_partial (go : Go) (look : Nat → Option Col) (db : DB) (m p : Model) (r : Row) (hr : db m.table m.id = some r)
    (hty : SameTys m.fields p.fields) (hst : Steadys m.fields p.fields) (hho : Honests m.fields) (hpl : Plains go false m.fields)
    (hm : Unambiguous look m.fields) (hp : Unambiguous look p.fields) :
    ∃ r', updateOne go look db m (some (some p)) m.table m.id = some r' ∧ ∀ c, m.row c = p.row c → r' c = r c := by
  refine ⟨_, updateOne_row go look db m p r hr, ?_⟩
  intro c hc
  have : some c ∉ (diffFlds go false m.fields p.fields).map look := by
    intro hmem
    obtain ⟨n, hn, hl⟩ := List.mem_map.mp hmem
    obtain ⟨c', v, w, hcn, hv, hw, hvw⟩ := C58_listed_changed_partial go m.fields p.fields false hty hst hho hpl n hn
    have := hm.2 c' v hv
    rw [hcn, hl] at this
    simp only [Option.some.injEq] at this
    subst this
    have h1 : m.row c = some v := mem_lookup hm.1 hv
    have h2 : p.row c = some w := mem_lookup hp.1 hw
    rw [h1, h2] at hc
    exact hvw (Option.some.inj hc)
  simp [this]

/-- C57, C58: if the row is what the snapshot says, then after the update it is what the current model says. -/
theorem C58_mirror_partial (go : Go) (look : Nat → Option Col) (db : DB) (m p : Model) (hr : db m.table m.id = some p.row)
    (hty : SameTys m.fields p.fields) (hst : Steadys m.fields p.fields) (hho : Honests m.fields)
    (hm : Unambiguous look m.fields) (hp : Unambiguous look p.fields) :
    updateOne go look db m (some (some p)) m.table m.id = some m.row := by
  obtain ⟨r', h', hch⟩ := C58_changed_written_partial go look db m p p.row hr hty hst hho hm hp
  have hrow := updateOne_row go look db m p p.row hr
  rw [h'] at hrow
  rw [h']
  simp only [Option.some.injEq] at hrow ⊢
  funext c
  by_cases hc : m.row c = p.row c
  · rw [hrow]
    show (if _ then _ else _) = _
    split
    · rfl
    · exact hc.symm
  · exact hch c hc

/-- C58: two updates of one row that list different columns have the same effect in either order, and both are kept. -/
theorem C58_disjoint_updates (look : Nat → Option Col) (db : DB) (m1 m2 : Model) (f1 f2 : List Nat) (hk : m1.table = m2.table ∧ m1.id = m2.id)
    (hd : ∀ c, some c ∈ f1.map look → some c ∉ f2.map look) :
    updateCols look (updateCols look db m1 f1) m2 f2 = updateCols look (updateCols look db m2 f2) m1 f1 ∧
    ∀ r, db m1.table m1.id = some r → updateCols look (updateCols look db m1 f1) m2 f2 m1.table m1.id
      = some fun c => if some c ∈ f1.map look then m1.row c else if some c ∈ f2.map look then m2.row c else r c := by
  obtain ⟨ht, hi⟩ := hk
  cases hr : db m1.table m1.id with
  | none => exact ⟨by simp [updateCols, hr, ← ht, ← hi], by simp⟩
  | some r =>
    have key : ∀ c, (if some c ∈ f2.map look then m2.row c else if some c ∈ f1.map look then m1.row c else r c)
        = if some c ∈ f1.map look then m1.row c else if some c ∈ f2.map look then m2.row c else r c := by
      intro c
      by_cases h1 : some c ∈ f1.map look
      · rw [if_neg (hd c h1)]; simp only [if_pos h1]
      · simp only [if_neg h1]
    refine ⟨?_, ?_⟩
    · funext t i
      simp only [updateCols, hr, ← ht, ← hi, setRow, and_self, if_true]
      split
      · simp only [Option.some.injEq]; funext c; exact key c
      · rfl
    · intro r' hr'
      simp only [Option.some.injEq] at hr'; subst hr'
      simp only [updateCols, hr, ← ht, ← hi, setRow, and_self, if_true, Option.some.injEq]
      funext c; exact key c

/-- C58: the update of several models is the update of each of their rows; all other rows stay. -/
theorem C58_all_rows (go : Go) (look : Nat → Option Col) (db : DB) (ms : List Model) (ps : List (Option Model)) (hl : ms.length = ps.length)
    (hn : (ms.map fun m => (m.table, m.id)).Nodup) :
    (∀ m p, (m, p) ∈ ms.zip ps → updateAll go look db ms ps m.table m.id = updateOne go look db m (some p) m.table m.id) ∧
    ∀ t i, (∀ m ∈ ms, ¬(t = m.table ∧ i = m.id)) → updateAll go look db ms ps t i = db t i := by
  have local1 : ∀ (db db' : DB) m p, db m.table m.id = db' m.table m.id → updateOne go look db m (some p) m.table m.id = updateOne go look db' m (some p) m.table m.id := by
    intro db db' m p h
    simp only [updateOne]
    by_cases hd : diffModel go m.fields (p.map Model.fields) = []
    · rw [if_pos hd, if_pos hd]; exact h
    · rw [if_neg hd, if_neg hd]
      cases hr : db' m.table m.id with
      | none => simp only [updateCols, h, hr]
      | some r => simp only [updateCols, h, hr, setRow, and_self, if_true]
  induction ms generalizing ps db with
  | nil => simp [updateAll]
  | cons m ms ih =>
    cases ps with
    | nil => simp at hl
    | cons p ps =>
      simp only [List.length_cons, Nat.add_right_cancel_iff] at hl
      simp only [List.map_cons, List.nodup_cons, List.mem_map, not_exists, not_and] at hn
      obtain ⟨ih1, ih2⟩ := ih (updateOne go look db m (some p)) ps hl hn.2
      simp only [updateAll]
      refine ⟨?_, ?_⟩
      · intro m' p' hmem
        rcases List.mem_cons.mp hmem with h | h
        · simp only [Prod.mk.injEq] at h
          rw [h.1, h.2]
          exact ih2 _ _ (fun x hx hh => hn.1 x hx (by rw [hh.1, hh.2]))
        · rw [ih1 m' p' h]
          apply local1
          apply C58_other_rows
          intro hh
          exact hn.1 m' (List.of_mem_zip h).1 (by rw [hh.1, hh.2])
      · intro t i h
        rw [ih2 t i (fun x hx => h x (by simp [hx]))]
        exact C58_other_rows go look db m p t i (h m (by simp))

/-- A snapshot without a model: the update is skipped silently. -/
theorem C57_nil_snapshot_skips (go : Go) (look : Nat → Option Col) (db : DB) (m : Model) : updateOne go look db m (some none) = db ∧ updateStmts go [m] [none] = [] := by
  simp [updateOne, diffModel, updateStmts]

/-- Without snapshot models the whole row is written. -/
theorem C58_save_overwrites (go : Go) (look : Nat → Option Col) (db : DB) (m : Model) :
    updateOne go look db m none m.table m.id = some m.row ∧ ∀ t i, ¬(t = m.table ∧ i = m.id) → updateOne go look db m none t i = db t i := by
  refine ⟨by simp [updateOne, setRow], fun t i h => by simp [updateOne, setRow, h]⟩

/-- An insert that succeeds adds exactly the rows of the models; it succeeds exactly when their primary keys are distinct and free. -/
theorem C58_insert (db : DB) (ms : List Model) :
    ((insertAll db ms).isSome ↔ (ms.map fun m => (m.table, m.id)).Nodup ∧ ∀ m ∈ ms, db m.table m.id = none) ∧
    ∀ db', insertAll db ms = some db' →
      (∀ m ∈ ms, db' m.table m.id = some m.row) ∧ ∀ t i, (∀ m ∈ ms, ¬(t = m.table ∧ i = m.id)) → db' t i = db t i := by
  induction ms generalizing db with
  | nil => simp [insertAll]
  | cons m ms ih =>
    obtain ⟨h1, h2⟩ := ih (setRow db m.table m.id (some m.row))
    simp only [insertAll]
    cases hr : db m.table m.id with
    | some r => simp [hr]
    | none =>
      simp only [Option.isSome_none, Bool.false_eq_true, if_false]
      refine ⟨?_, ?_⟩
      · rw [h1]
        simp only [List.map_cons, List.nodup_cons, List.mem_map, not_exists, not_and, List.mem_cons, forall_eq_or_imp, hr, true_and]
        constructor
        · rintro ⟨hn, hf⟩
          have hne : ∀ x ∈ ms, ¬(x.table = m.table ∧ x.id = m.id) := by
            intro x hx hh
            have := hf x hx
            simp [setRow, hh] at this
          refine ⟨⟨fun x hx he => ?_, hn⟩, fun x hx => ?_⟩
          · simp only [Prod.mk.injEq] at he
            exact hne x hx he
          · have := hf x hx
            simpa [setRow, hne x hx] using this
        · rintro ⟨⟨hm, hn⟩, hf⟩
          refine ⟨hn, fun x hx => ?_⟩
          have hne : ¬(x.table = m.table ∧ x.id = m.id) := fun hh => hm x hx (by simp [hh.1, hh.2])
          simp [setRow, hne, hf x hx]
      · intro db' hdb'
        have hsome : (insertAll (setRow db m.table m.id (some m.row)) ms).isSome := by rw [hdb']; rfl
        obtain ⟨hn, hf⟩ := h1.mp hsome
        obtain ⟨h3, h4⟩ := h2 db' hdb'
        have hne : ∀ x ∈ ms, ¬(m.table = x.table ∧ m.id = x.id) := by
          intro x hx hh
          have := hf x hx
          simp [setRow, ← hh.1, ← hh.2] at this
        refine ⟨fun x hx => ?_, fun t i h => ?_⟩
        · rcases List.mem_cons.mp hx with rfl | hx
          · rw [h4 _ _ hne]; simp [setRow]
          · exact h3 x hx
        · rw [h4 t i (fun x hx => h x (by simp [hx]))]
          simp [setRow, h m (by simp)]

/-- A delete removes exactly the rows of the models, when these are of one table. -/
theorem C58_delete (db : DB) (ms : List Model) (hone : ∀ m ∈ ms, ∀ m' ∈ ms, m.table = m'.table) :
    (∀ m ∈ ms, deleteAll db ms m.table m.id = none) ∧ ∀ t i, (∀ m ∈ ms, ¬(t = m.table ∧ i = m.id)) → deleteAll db ms t i = db t i := by
  cases ms with
  | nil => simp [deleteAll]
  | cons m ms =>
    refine ⟨fun x hx => ?_, fun t i h => ?_⟩
    · have ht := hone x hx m (by simp)
      have hi : x.id ∈ (m :: ms).map Model.id := List.mem_map.mpr ⟨x, hx, rfl⟩
      simp only [deleteAll, ht, true_and, hi, if_true]
    · simp only [deleteAll]
      rw [if_neg]
      rintro ⟨rfl, hi⟩
      obtain ⟨x, hx, rfl⟩ := List.mem_map.mp hi
      exact h x hx ⟨hone m (by simp) x hx, rfl⟩

/-! ## where the English claims fail, and a case that meets the hypotheses -/

/-- leaves: 7 is a slice, 8 is NaN, everything else is an ordinary comparable value -/
def go0 : Go := ⟨fun v => decide (v ≠ 7), fun v => decide (v ≠ 8)⟩

/-- an ordinary exported column -/
def fld (n : Nat) : Fld := ⟨n, true, false, false, false, []⟩
/-- an anonymous struct whose columns gorm spreads -/
def emb (n : Nat) : Fld := ⟨n, true, true, false, true, []⟩

/-- C57 is false: an embedded pointer that was nil and is set is not written at all; the changes in it are lost silently. -/
theorem C57_embedded_pointer_lost (go : Go) (v : Nat) :
    diffModel go (.cons (emb 1) (.ref (.struct (.cons (fld 2) (.leaf (v + 1)) .nil))) .nil) (some (.cons (emb 1) .nil .nil)) = [] := by
  simp [diffModel, diffFlds, diffVal, Val.isStruct, emb]

/-- C57 is false: an embedded pointer that is cleared lists the name of the struct (no column) and none of its columns. -/
theorem C57_embedded_pointer_cleared (go : Go) (v : Nat) :
    diffModel go (.cons (emb 1) .nil .nil) (some (.cons (emb 1) (.ref (.struct (.cons (fld 2) (.leaf (v + 1)) .nil))) .nil)) = [1] := by
  simp [diffModel, diffFlds, diffVal, Val.isStruct, emb]

/-- C57 is false: an anonymous `time.Time` (one column of gorm) is taken apart and its column is not listed: what is listed are names of no column (3 here). -/
theorem C57_anonymous_one_column_lost (go : Go) (v : Nat) :
    diffModel go (.cons { emb 1 with spread := false } (.struct (.cons { fld 3 with exported := false } (.leaf (v + 2)) .nil)) .nil)
      (some (.cons { emb 1 with spread := false } (.struct (.cons { fld 3 with exported := false } (.leaf (v + 1)) .nil)) .nil)) = [3] := by
  simp [diffModel, diffFlds, diffVal, Val.isStruct, emb, fld, Val.isZero, Flds.isZero, leafEq]

/-- C57 is false: two embedded structs with the same field and different prefixes: whichever column gorm finds for the name, a change of one of the two is not written. -/
theorem C57_same_name_lost (look : Nat → Option Col) : ∃ fs gs c, SameTys fs gs ∧ Steadys fs gs ∧ Honests fs ∧ fs.row c ≠ gs.row c ∧
    ∀ db, db 0 5 = some gs.row → ∃ r, updateOne go0 look db ⟨0, 5, fs⟩ (some (some ⟨0, 5, gs⟩)) 0 5 = some r ∧ r c = gs.row c := by
  let home (v : Nat) : Val := .struct (.cons (fld 2) (.leaf v) .nil)
  let mk (a b : Nat) : Flds := .cons { emb 1 with anon := false, tagged := true, pre := [10] } (home a) (.cons { emb 4 with anon := false, tagged := true, pre := [11] } (home b) .nil)
  by_cases hl : look 2 = some ([10], 2)
  · refine ⟨mk 1 2, mk 1 3, ([11], 2), by simp [mk, home, SameTys, SameTy], by simp [mk, home, Steadys, Steady],
      by simp [mk, home, Honests, Honest, Fld.flat, emb, fld, Val.isStruct], by decide +kernel, ?_⟩
    intro db hr
    refine ⟨_, updateOne_row go0 look db ⟨0, 5, mk 1 2⟩ ⟨0, 5, mk 1 3⟩ _ hr, ?_⟩
    have hd : diffFlds go0 false (mk 1 2) (mk 1 3) = [2] := by decide +kernel
    simp [hd, hl]
  · refine ⟨mk 2 1, mk 3 1, ([10], 2), by simp [mk, home, SameTys, SameTy], by simp [mk, home, Steadys, Steady],
      by simp [mk, home, Honests, Honest, Fld.flat, emb, fld, Val.isStruct], by decide +kernel, ?_⟩
    intro db hr
    refine ⟨_, updateOne_row go0 look db ⟨0, 5, mk 2 1⟩ ⟨0, 5, mk 3 1⟩ _ hr, ?_⟩
    have hd : diffFlds go0 false (mk 2 1) (mk 3 1) = [2] := by decide +kernel
    have : ¬some ([10], 2) = look 2 := fun h => hl h.symm
    simp [hd, this]

/-- C58 is false: a struct with a non-empty slice in an unexported field (a `time.Time` whose location is not UTC holds one) is always listed, so an unchanged model is written at every save and overwrites concurrent changes of that column. -/
theorem C58_unexported_slice_always_written :
    diffModel go0 (.cons (fld 1) (.struct (.cons { fld 3 with exported := false } (.leaf 7) .nil)) .nil)
      (some (.cons (fld 1) (.struct (.cons { fld 3 with exported := false } (.leaf 7) .nil)) .nil)) = [1] := by
  decide +kernel

/-- C58 is false: a NaN is always listed. -/
theorem C58_nan_always_written : diffModel go0 (.cons (fld 1) (.leaf 8) .nil) (some (.cons (fld 1) (.leaf 8) .nil)) = [1] := by decide +kernel

/-! A model with a plain column, an embedded struct that contains an embedded pointer, a one-column struct and an unexported comparable field. -/

def demoModel (a b c d : Nat) : Flds :=
  .cons (fld 1) (.leaf a)
  (.cons (emb 2) (.struct (.cons (fld 3) (.leaf b) (.cons (emb 4) (.ref (.struct (.cons (fld 5) (.leaf c) .nil))) .nil)))
  (.cons (fld 6) (.struct (.cons { fld 7 with exported := false } (.leaf d) .nil)) .nil))

theorem demo_ty (a b c d a' b' c' d' : Nat) : SameTys (demoModel a b c d) (demoModel a' b' c' d') ∧ Steadys (demoModel a b c d) (demoModel a' b' c' d') ∧ Honests (demoModel a b c d) := by
  simp [demoModel, SameTys, SameTy, Steadys, Steady, Honests, Honest, Fld.flat, emb, fld, Val.isStruct]

theorem demo_plain : Plains go0 false (demoModel 1 2 3 4) := by
  simp [demoModel, Plains, Plain, go0, emb, fld]

def demoLook (n : Nat) : Option Col := some ([], n)

theorem demo_look (a b c d : Nat) : Unambiguous demoLook (demoModel a b c d) := by
  constructor
  · simp [demoModel, Flds.cols, pfx, emb, fld]
  · intro c' v h
    simp [demoModel, Flds.cols, pfx, emb, fld] at h
    obtain ⟨c1, c2⟩ := c'
    grind [demoLook]

/-- all the hypotheses together, and what comes out: the columns 3, 5 and 6 are written, the others keep what a concurrent command wrote -/
example : diffModel go0 (demoModel 1 2 3 4) (some (demoModel 1 9 8 6)) = [3, 5, 6] := by decide +kernel

example (db : DB) (hr : db 0 5 = some fun c => if c = ([], 1) then some (.leaf 77) else (demoModel 1 9 8 6).row c) :
    ∃ r, updateOne go0 demoLook db ⟨0, 5, demoModel 1 2 3 4⟩ (some (some ⟨0, 5, demoModel 1 9 8 6⟩)) 0 5 = some r ∧ r ([], 1) = some (.leaf 77) := by
  obtain ⟨r, h1, h2⟩ := C58_others_kept_partial go0 demoLook db ⟨0, 5, demoModel 1 2 3 4⟩ ⟨0, 5, demoModel 1 9 8 6⟩ _ hr
    (demo_ty ..).1 (demo_ty 1 2 3 4 1 9 8 6).2.1 (demo_ty 1 2 3 4 1 9 8 6).2.2 demo_plain (demo_look ..) (demo_look ..)
  exact ⟨r, h1, by rw [h2 _ (by decide +kernel)]; simp⟩

end Ddd.Diff
