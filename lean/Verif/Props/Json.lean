import Mathlib.Logic.Encodable.Basic
import Mathlib.Logic.Equiv.List
import Verif.Spec.Json
/-!
# C121: the data of an event reach its handlers
-/
set_option linter.unusedVariables false
set_option linter.unnecessarySeqFocus false
set_option linter.unusedSimpArgs false
namespace Ddd.Json
open Spec

variable {L : Lib}

theorem genericEntries_gather : ∀ (js : List J) (ks : List (List Char)) (aks : List (List Piece)) (avs : List Val),
    genericEntries L ks js aks avs = gather (ks.map ofChars) (generics L js) aks avs
  | [], ks, aks, avs => by cases ks <;> simp [genericEntries, generics, gather]
  | j :: js, [], aks, avs => by simp [genericEntries, generics, gather]
  | j :: js, k :: ks, aks, avs => by simp only [genericEntries, generics, List.map_cons, gather]; exact genericEntries_gather js ks _ _

mutual
theorem generic_encode (t : Ty) : (v : Val) → ∀ j, HasTy L t v → encode L t v = some j → generic L j = widen L t v
  | .bool b => by intro j _ h; simp only [encode, Option.some.injEq] at h; subst h; simp [generic, widen]
  | .int i => by intro j _ h; simp only [encode, Option.some.injEq] at h; subst h; simp [generic, widen]
  | .float l => by
    intro j ht h
    cases t <;> simp only [HasTy] at ht
    cases l with
    | none => simp [encode] at h
    | some x => simp only [encode, Option.map_some, Option.some.injEq] at h; subst h; simp [generic, widen, ht x rfl]
  | .str s => by intro j _ h; simp only [encode, Option.some.injEq] at h; subst h; simp [generic, widen, readable]
  | .bytes b => by intro j _ h; simp only [encode, Option.some.injEq] at h; subst h; simp [generic, widen]
  | .time x m => by intro j _ h; simp only [encode, Option.some.injEq] at h; subst h; simp [generic, widen]
  | .nil => by intro j _ h; simp only [encode, Option.some.injEq] at h; subst h; simp [generic, widen]
  | .ref v => by
    intro j ht h
    cases t <;> simp only [HasTy] at ht
    rename_i t
    simp only [encode] at h
    simp only [widen]
    exact generic_encode t v j ht h
  | .slice l => by
    intro j ht h
    cases t <;> simp only [HasTy] at ht
    rename_i t
    simp only [encode, Option.map_eq_some_iff] at h
    obtain ⟨js, h1, rfl⟩ := h
    simp only [generic, widen, generics_encode t l js ht h1]
  | .map ks vs => by
    intro j ht h
    cases t <;> simp only [HasTy] at ht
    rename_i t
    simp only [encode, Option.map_eq_some_iff] at h
    obtain ⟨js, h1, rfl⟩ := h
    simp only [generic, widen, genericEntries_gather, generics_encode t vs js ht.2.2 h1, List.map_map]
    rfl
  | .struct l => by
    intro j ht h
    cases t <;> simp only [HasTy] at ht
    rename_i keys vis omits ts
    simp only [encode, Option.map_eq_some_iff] at h
    obtain ⟨x, h1, rfl⟩ := h
    obtain ⟨h2, h3⟩ := generics_fields ts l keys vis omits x ht.2.2.2.2 h1
    simp only [generic, widen, genericEntries_gather, h2, h3]
  | .dyn t' v => by
    intro j ht h
    cases t <;> simp only [HasTy] at ht
    simp only [encode] at h
    simp only [widen]
    exact generic_encode t' v j ht.2 h
theorem generics_encode (t : Ty) : (l : List Val) → ∀ js, AllTy L t l → encodeAll L t l = some js → generics L js = widenAll L t l
  | [] => by intro js _ h; simp only [encodeAll, Option.some.injEq] at h; subst h; simp [generics, widenAll]
  | v :: l => by
    intro js ht h
    simp only [AllTy] at ht
    simp only [encodeAll, Option.bind_eq_some_iff, Option.map_eq_some_iff] at h
    obtain ⟨j, h1, js', h2, rfl⟩ := h
    simp only [generics, widenAll, generic_encode t v j ht.1 h1, generics_encode t l js' ht.2 h2]
theorem generics_fields (ts : List Ty) : (l : List Val) → ∀ keys vis omits x, FieldsTy L ts l → encodeFields L keys vis omits ts l = some x →
    x.1.map ofChars = (widenFields L keys vis omits ts l).1 ∧ generics L x.2 = (widenFields L keys vis omits ts l).2
  | [] => by
    intro keys vis omits x ht h
    cases ts <;> simp only [FieldsTy] at ht
    simp only [encodeFields, Option.some.injEq] at h; subst h; simp [generics, widenFields]
  | v :: l => by
    intro keys vis omits x ht h
    cases ts with
    | nil => simp only [FieldsTy] at ht
    | cons t ts =>
      simp only [FieldsTy] at ht
      rcases keys with _ | ⟨k, keys⟩
      · simp only [encodeFields, Option.some.injEq] at h; subst h; simp [generics, widenFields]
      rcases vis with _ | ⟨vi, vis⟩
      · simp only [encodeFields, Option.some.injEq] at h; subst h; simp [generics, widenFields]
      rcases omits with _ | ⟨om, omits⟩
      · simp only [encodeFields, Option.some.injEq] at h; subst h; simp [generics, widenFields]
      simp only [encodeFields] at h
      simp only [widenFields]
      split at h
      · next hc =>
        simp only [Option.bind_eq_some_iff, Option.map_eq_some_iff] at h
        obtain ⟨j, h1, y, h2, rfl⟩ := h
        obtain ⟨h3, h4⟩ := generics_fields ts l keys vis omits y ht.2 h2
        simp only [hc, if_true, List.map_cons, generics, h3, h4, generic_encode t v j ht.1 h1, and_self]
      · next hc =>
        obtain ⟨h3, h4⟩ := generics_fields ts l keys vis omits x ht.2 h
        simp only [hc, if_false, h3, h4, Bool.false_eq_true, and_self]
end

/-- a pointer is allocated unless the text is `null` -/
theorem decode_ptr (t : Ty) (j : J) (hj : j ≠ .null) : decode L (.ptr t) j = (decode L t j).map .ref := by
  cases j with
  | null => exact absurd rfl hj
  | bool b => simp only [decode, Ty.base, Ty.ptrs]; cases t.base <;> simp [wrap]
  | num l => simp only [decode, Ty.base, Ty.ptrs]; cases t.base <;> simp [wrap] <;> cases l <;> simp [wrap]
  | str s => simp only [decode, Ty.base, Ty.ptrs]; cases t.base <;> simp [wrap, Function.comp_def]
  | arr l => simp only [decode, Ty.base, Ty.ptrs]; cases t.base <;> simp [wrap, Function.comp_def]
  | obj ks js => simp only [decode, Ty.base, Ty.ptrs]; cases t.base <;> simp [wrap, Function.comp_def]

theorem decode_iface (j : J) : decode L .iface j = some (generic L j) := by
  cases j <;> simp [decode, Ty.base, Ty.ptrs, wrap, generic, Ty.zero]

theorem null_iff (t : Ty) : (v : Val) → ∀ j, HasTy L t v → encode L t v = some j → (j = .null ↔ writesNull v = true)
  | .bool b => by intro j _ h; simp only [encode, Option.some.injEq] at h; subst h; simp [writesNull]
  | .int i => by intro j _ h; simp only [encode, Option.some.injEq] at h; subst h; simp [writesNull]
  | .float l => by
    intro j ht h
    cases l with
    | none => simp [encode] at h
    | some x => simp only [encode, Option.map_some, Option.some.injEq] at h; subst h; simp [writesNull]
  | .str s => by intro j _ h; simp only [encode, Option.some.injEq] at h; subst h; simp [writesNull]
  | .bytes b => by intro j _ h; simp only [encode, Option.some.injEq] at h; subst h; simp [writesNull]
  | .time x m => by intro j _ h; simp only [encode, Option.some.injEq] at h; subst h; simp [writesNull]
  | .nil => by intro j _ h; simp only [encode, Option.some.injEq] at h; subst h; simp [writesNull]
  | .ref v => by
    intro j ht h
    cases t <;> simp only [HasTy] at ht
    simp only [encode] at h
    simp only [writesNull]
    exact null_iff _ v j ht h
  | .slice l => by
    intro j ht h
    cases t <;> simp only [HasTy] at ht
    simp only [encode, Option.map_eq_some_iff] at h
    obtain ⟨js, h1, rfl⟩ := h
    simp [writesNull]
  | .map ks vs => by
    intro j ht h
    cases t <;> simp only [HasTy] at ht
    simp only [encode, Option.map_eq_some_iff] at h
    obtain ⟨js, h1, rfl⟩ := h
    simp [writesNull]
  | .struct l => by
    intro j ht h
    cases t <;> simp only [HasTy] at ht
    simp only [encode, Option.map_eq_some_iff] at h
    obtain ⟨js, h1, rfl⟩ := h
    simp [writesNull]
  | .dyn t' v => by
    intro j ht h
    cases t <;> simp only [HasTy] at ht
    simp only [encode] at h
    simp only [writesNull]
    exact null_iff t' v j ht.2 h

theorem decodeEntries_gather (t : Ty) : ∀ (js : List J) (vs : List Val) (ks : List (List Char)) (aks : List (List Piece)) (avs : List Val), ks.length = js.length → decodeAll L t js = some vs →
    decodeEntries L t ks js aks avs = some (gather (ks.map ofChars) vs aks avs)
  | [], vs, ks, aks, avs, hl, h => by
    simp only [decodeAll, Option.some.injEq] at h; subst h
    cases ks <;> simp_all [decodeEntries, gather]
  | j :: js, vs, [], aks, avs, hl, h => by simp at hl
  | j :: js, vs, k :: ks, aks, avs, hl, h => by
    simp only [decodeAll, Option.bind_eq_some_iff, Option.map_eq_some_iff] at h
    obtain ⟨v, h1, vs', h2, rfl⟩ := h
    simp only [decodeEntries, h1, Option.bind_some, List.map_cons, gather]
    exact decodeEntries_gather t js vs' ks _ _ (by simpa using hl) h2

theorem visible_append (a b : List (List Char)) (va vb : List Bool) (h : a.length = va.length) : visible (a ++ b) (va ++ vb) = visible a va ++ visible b vb := by
  simp [visible, List.zip_append h]

theorem place_skip (p : List Char → Bool) : ∀ (pk : List (List Char)) (pv : List Bool) (pt : List Ty) (keys : List (List Char)) (vis : List Bool) (ts : List Ty), pk.length = pt.length → pv.length = pt.length →
    (∀ k ∈ visible pk pv, p k = false) → place p (pk ++ keys) (pv ++ vis) (pt ++ ts) = (place p keys vis ts).map fun x => (x.1 + pt.length, x.2)
  | [], [], [], keys, vis, ts, _, _, _ => by simp
  | k :: pk, vi :: pv, t :: pt, keys, vis, ts, h1, h2, h => by
    have hh : (vi && p k) = false := by
      cases vi with
      | false => rfl
      | true => simpa using h k (by simp [visible])
    simp only [List.cons_append, place, hh, if_false, Bool.false_eq_true]
    rw [place_skip p pk pv pt keys vis ts (by simpa using h1) (by simpa using h2) (fun k' hk' => h k' (by
      have : visible (k :: pk) (vi :: pv) = (if vi then [k] else []) ++ visible pk pv := by cases vi <;> simp [visible]
      rw [this]; exact List.mem_append_right _ hk'))]
    simp [Option.map_map, Function.comp_def, Nat.add_assoc]
  | [], _ :: _, [], _, _, _, _, h2, _ => by simp at h2
  | [], _, _ :: _, _, _, _, h1, _, _ => by simp at h1
  | _ :: _, _, [], _, _, _, h1, _, _ => by simp at h1
  | _ :: _, [], _ :: _, _, _, _, _, h2, _ => by simp at h2

/-- the exact name finds its field -/
theorem field_here (pk : List (List Char)) (pv : List Bool) (pt : List Ty) (k : List Char) (t : Ty) (keys : List (List Char)) (vis : List Bool) (ts : List Ty) (h1 : pk.length = pt.length) (h2 : pv.length = pt.length)
    (hn : (visible (pk ++ k :: keys) (pv ++ true :: vis)).Nodup) : field L k (pk ++ k :: keys) (pv ++ true :: vis) (pt ++ t :: ts) = some (pt.length, t) := by
  rw [visible_append _ _ _ _ (h1.trans h2.symm)] at hn
  have hk : k ∉ visible pk pv := by
    intro hm
    have := (List.nodup_append.1 hn).2.2 k hm k (by simp [visible])
    exact this rfl
  unfold field
  rw [place_skip _ pk pv pt (k :: keys) (true :: vis) (t :: ts) h1 h2 (fun k' hk' => by
    simp only [decide_eq_false_iff_not]; rintro rfl; exact hk hk')]
  simp [place]

theorem gather_length : ∀ (l : List Val) (t : Ty) (js : List J), encodeAll L t l = some js → js.length = l.length
  | [], t, js, h => by simp only [encodeAll, Option.some.injEq] at h; subst h; rfl
  | v :: l, t, js, h => by
    simp only [encodeAll, Option.bind_eq_some_iff, Option.map_eq_some_iff] at h
    obtain ⟨j, h1, js', h2, rfl⟩ := h
    simp [gather_length l t js' h2]

mutual
theorem decode_encode (t : Ty) : (v : Val) → ∀ j, HasTy L t v → encode L t v = some j → decode L t j = some (survive L t v)
  | .bool b => by
    intro j ht h
    cases t <;> simp only [HasTy] at ht
    simp only [encode, Option.some.injEq] at h; subst h; simp [decode, survive, Ty.base, Ty.ptrs, wrap]
  | .int i => by
    intro j ht h
    cases t <;> simp only [HasTy] at ht
    simp only [encode, Option.some.injEq] at h; subst h; simp [decode, survive, Ty.base, Ty.ptrs, wrap, ht]
  | .float l => by
    intro j ht h
    cases t <;> simp only [HasTy] at ht
    cases l with
    | none => simp [encode] at h
    | some x => simp only [encode, Option.map_some, Option.some.injEq] at h; subst h; simp [decode, survive, Ty.base, Ty.ptrs, wrap, ht x rfl]
  | .str s => by
    intro j ht h
    cases t <;> simp only [HasTy] at ht
    simp only [encode, Option.some.injEq] at h; subst h; simp [decode, survive, Ty.base, Ty.ptrs, wrap, readable]
  | .bytes b => by
    intro j ht h
    cases t <;> simp only [HasTy] at ht
    simp only [encode, Option.some.injEq] at h; subst h; simp [decode, survive, Ty.base, Ty.ptrs, wrap, L.b64_ok]
  | .time x m => by
    intro j ht h
    cases t <;> simp only [HasTy] at ht
    simp only [encode, Option.some.injEq] at h; subst h; simp [decode, survive, Ty.base, Ty.ptrs, wrap, L.time_ok]
  | .nil => by
    intro j ht h
    simp only [encode, Option.some.injEq] at h; subst h
    cases t <;> simp only [HasTy] at ht <;> simp [decode, survive, Ty.zero]
  | .ref v => by
    intro j ht h
    cases t <;> simp only [HasTy] at ht
    rename_i t
    simp only [encode] at h
    simp only [survive]
    by_cases hj : j = .null
    · rw [if_pos ((null_iff t v j ht h).1 hj), hj]
      simp [decode, Ty.zero]
    · rw [if_neg (fun hw => hj ((null_iff t v j ht h).2 hw)), decode_ptr t j hj, decode_encode t v j ht h]
      rfl
  | .slice l => by
    intro j ht h
    cases t <;> simp only [HasTy] at ht
    rename_i t
    simp only [encode, Option.map_eq_some_iff] at h
    obtain ⟨js, h1, rfl⟩ := h
    simp [decode, survive, Ty.base, Ty.ptrs, wrap, decodeAll_encode t l js ht h1]
  | .map ks vs => by
    intro j ht h
    cases t <;> simp only [HasTy] at ht
    rename_i t
    simp only [encode, Option.map_eq_some_iff] at h
    obtain ⟨js, h1, rfl⟩ := h
    have hd := decodeEntries_gather t js _ (ks.map clean) [] [] (by simp [ht.1, gather_length vs t js h1]) (decodeAll_encode t vs js ht.2.2 h1)
    simp only [decode, Ty.base, Ty.ptrs, wrap, hd, Option.map_some, survive, List.map_map]
    rfl
  | .struct l => by
    intro j ht h
    cases t <;> simp only [HasTy] at ht
    rename_i keys vis omits ts
    obtain ⟨h1, h2, h3, h4, h5⟩ := ht
    simp only [encode, Option.map_eq_some_iff] at h
    obtain ⟨x, h6, rfl⟩ := h
    have := decodeFields_encode ts l [] [] [] [] keys vis omits x rfl rfl rfl h1 h2 h3 h4 h5 h6
    simp only [List.nil_append] at this
    simp [decode, survive, Ty.base, Ty.ptrs, wrap, this]
  | .dyn t' v => by
    intro j ht h
    cases t <;> simp only [HasTy] at ht
    simp only [encode] at h
    rw [decode_iface, generic_encode t' v j ht.2 h]
    simp [survive]
theorem decodeAll_encode (t : Ty) : (l : List Val) → ∀ js, AllTy L t l → encodeAll L t l = some js → decodeAll L t js = some (surviveAll L t l)
  | [] => by intro js _ h; simp only [encodeAll, Option.some.injEq] at h; subst h; simp [decodeAll, surviveAll]
  | v :: l => by
    intro js ht h
    simp only [AllTy] at ht
    simp only [encodeAll, Option.bind_eq_some_iff, Option.map_eq_some_iff] at h
    obtain ⟨j, h1, js', h2, rfl⟩ := h
    simp [decodeAll, surviveAll, decode_encode t v j ht.1 h1, decodeAll_encode t l js' ht.2 h2]
theorem decodeFields_encode (ts : List Ty) : (l : List Val) → ∀ (pk : List (List Char)) (pv : List Bool) (pt : List Ty) (A : List Val) keys vis omits x, pk.length = pt.length → pv.length = pt.length → A.length = pt.length →
    keys.length = ts.length → vis.length = ts.length → omits.length = ts.length → (visible (pk ++ keys) (pv ++ vis)).Nodup → FieldsTy L ts l → encodeFields L keys vis omits ts l = some x →
    decodeFields L (pk ++ keys) (pv ++ vis) (pt ++ ts) x.1 x.2 (A ++ zeros ts) = some (A ++ surviveFields L vis omits ts l)
  | [] => by
    intro pk pv pt A keys vis omits x _ _ _ _ _ _ _ ht h
    cases ts <;> simp only [FieldsTy] at ht
    simp only [encodeFields, Option.some.injEq] at h; subst h
    simp [decodeFields, surviveFields, zeros]
  | v :: l => by
    intro pk pv pt A keys vis omits x h1 h2 h3 h4 h5 h6 hn ht h
    cases ts with
    | nil => simp only [FieldsTy] at ht
    | cons t ts =>
      simp only [FieldsTy] at ht
      rcases keys with _ | ⟨k, keys⟩
      · simp at h4
      rcases vis with _ | ⟨vi, vis⟩
      · simp at h5
      rcases omits with _ | ⟨om, omits⟩
      · simp at h6
      have re : ∀ {α : Type} (a : List α) (y : α) (b : List α), a ++ y :: b = (a ++ [y]) ++ b := by intro α a y b; simp
      simp only [encodeFields] at h
      simp only [surviveFields]
      have hn' := hn
      rw [re pk, re pv] at hn'
      by_cases hc : (vi && !(om && v.empty)) = true
      · rw [if_pos hc] at h
        rw [if_pos hc]
        simp only [Option.bind_eq_some_iff, Option.map_eq_some_iff] at h
        obtain ⟨j, g1, y, g2, rfl⟩ := h
        have hvi : vi = true := by cases vi <;> simp_all
        subst hvi
        simp only [decodeFields, field_here pk pv pt k t keys vis ts h1 h2 hn, decode_encode t v j ht.1 g1, Option.bind_some, zeros]
        have hset : (A ++ t.zero :: zeros ts).set pt.length (survive L t v) = (A ++ [survive L t v]) ++ zeros ts := by
          rw [← h3]; simp
        rw [hset, re pk, re pv, re pt]
        rw [decodeFields_encode ts l (pk ++ [k]) (pv ++ [true]) (pt ++ [t]) (A ++ [survive L t v]) keys vis omits y (by simp [h1]) (by simp [h2]) (by simp [h3]) (by simpa using h4) (by simpa using h5)
          (by simpa using h6) hn' ht.2 g2]
        simp
      · rw [if_neg hc] at h
        rw [if_neg hc]
        simp only [zeros]
        rw [re pk, re pv, re pt, re A]
        rw [decodeFields_encode ts l (pk ++ [k]) (pv ++ [vi]) (pt ++ [t]) (A ++ [t.zero]) keys vis omits x (by simp [h1]) (by simp [h2]) (by simp [h3]) (by simpa using h4) (by simpa using h5)
          (by simpa using h6) hn' ht.2 h]
        simp
end

/-! ## values that come back as they were -/

theorem ofChars_clean {s : List Piece} (h : ∀ p ∈ s, ∃ c, p = .ch c) : readable s = s := by
  induction s with
  | nil => rfl
  | cons p s ih =>
    obtain ⟨c, rfl⟩ := h p (by simp)
    simp only [readable, clean, ofChars, List.map_cons, List.cons.injEq, true_and]
    exact ih fun q hq => h q (by simp [hq])

theorem put_new (k : List Piece) (v : Val) : ∀ (ks : List (List Piece)) (vs : List Val), ks.length = vs.length → k ∉ ks → put k v ks vs = (ks ++ [k], vs ++ [v])
  | [], [], _, _ => by simp [put]
  | x :: ks, y :: vs, hl, h => by
    have : x ≠ k := by rintro rfl; simp at h
    have ih := put_new k v ks vs (by simpa using hl) (fun hm => h (by simp [hm]))
    simp [put, this, ih]
  | [], _ :: _, hl, _ => by simp at hl
  | _ :: _, [], hl, _ => by simp at hl

theorem gather_nodup : ∀ (ks : List (List Piece)) (vs : List Val) (aks : List (List Piece)) (avs : List Val), ks.length = vs.length → aks.length = avs.length → (aks ++ ks).Nodup →
    gather ks vs aks avs = (aks ++ ks, avs ++ vs)
  | [], [], aks, avs, _, _, _ => by simp [gather]
  | k :: ks, v :: vs, aks, avs, h1, h2, hn => by
    have hk : k ∉ aks := by
      intro hm
      exact (List.nodup_append.1 hn).2.2 k hm k (by simp) rfl
    simp only [gather, put_new k v aks avs h2 hk]
    rw [gather_nodup ks vs (aks ++ [k]) (avs ++ [v]) (by simpa using h1) (by simp [h2]) (by simpa using hn)]
    simp
  | [], _ :: _, _, _, h, _, _ => by simp at h
  | _ :: _, [], _, _, h, _, _ => by simp at h

theorem writesNull_plain {t : Ty} {v : Val} (h : Ty.mayBeNil t = false) (ht : HasTy L t v) : writesNull v = false := by
  cases v <;> cases t <;> simp_all [Ty.mayBeNil, HasTy, writesNull]

theorem empty_zero {t : Ty} {v : Val} (h : Ty.emptyNotNil t = false) (hp : Plain t) (ht : HasTy L t v) (he : v.empty = true) : v = t.zero := by
  cases v with
  | float l => cases l <;> cases t <;> simp_all [Ty.emptyNotNil, HasTy, Val.empty, Ty.zero]
  | _ => cases t <;> simp_all [Ty.emptyNotNil, HasTy, Val.empty, Ty.zero, Plain]

theorem surviveAll_length : ∀ (l : List Val) (t : Ty), (surviveAll L t l).length = l.length
  | [], t => by simp [surviveAll]
  | v :: l, t => by simp [surviveAll, surviveAll_length l t]

mutual
theorem survive_plain (t : Ty) : (v : Val) → Plain t → HasTy L t v → Tidy v → survive L t v = v
  | .bool b => by intro hp ht hv; cases t <;> simp only [HasTy] at ht; simp [survive]
  | .int b => by intro hp ht hv; cases t <;> simp only [HasTy] at ht; simp [survive]
  | .float b => by intro hp ht hv; cases t <;> simp only [HasTy] at ht; simp [survive]
  | .str s => by
    intro hp ht hv
    cases t <;> simp only [HasTy] at ht
    simp only [Tidy] at hv
    simp [survive, ofChars_clean hv]
  | .bytes b => by intro hp ht hv; cases t <;> simp only [HasTy] at ht; simp [survive]
  | .time x m => by intro hp ht hv; cases t <;> simp only [HasTy] at ht; simp only [Tidy] at hv; simp [survive, hv]
  | .nil => by intro hp ht hv; cases t <;> simp only [HasTy] at ht <;> simp [survive]
  | .ref v => by
    intro hp ht hv
    cases t <;> simp only [HasTy] at ht
    simp only [Plain] at hp
    simp only [Tidy] at hv
    simp [survive, writesNull_plain hp.1 ht, survive_plain _ v hp.2 ht hv]
  | .slice l => by
    intro hp ht hv
    cases t <;> simp only [HasTy] at ht
    simp only [Plain] at hp
    simp only [Tidy] at hv
    simp [survive, surviveAll_plain _ l hp ht hv]
  | .map ks vs => by
    intro hp ht hv
    cases t <;> simp only [HasTy] at ht
    simp only [Plain] at hp
    simp only [Tidy] at hv
    have hk : ks.map readable = ks := by
      have : ks.map readable = ks.map id := List.map_congr_left fun k hk => ofChars_clean (hv.1 k hk)
      simpa using this
    simp [survive, hk, surviveAll_plain _ vs hp ht.2.2 hv.2, gather_nodup ks vs [] [] ht.1 rfl (by simpa using ht.2.1)]
  | .struct l => by
    intro hp ht hv
    cases t <;> simp only [HasTy] at ht
    simp only [Plain] at hp
    simp only [Tidy] at hv
    simp [survive, surviveFields_plain _ l _ _ hp.1 hp.2 ht.2.1 ht.2.2.1 ht.2.2.2.2 hv]
  | .dyn t' v => by
    intro hp ht hv
    cases t <;> simp only [HasTy] at ht
    simp only [Plain] at hp
theorem surviveAll_plain (t : Ty) : (l : List Val) → Plain t → AllTy L t l → TidyAll l → surviveAll L t l = l
  | [] => by intro _ _ _; simp [surviveAll]
  | v :: l => by
    intro hp ht hv
    simp only [AllTy] at ht
    simp only [TidyAll] at hv
    simp [surviveAll, survive_plain t v hp ht.1 hv.1, surviveAll_plain t l hp ht.2 hv.2]
theorem surviveFields_plain (ts : List Ty) : (l : List Val) → ∀ vis omits, (∀ b ∈ vis, b = true) → PlainFields omits ts → vis.length = ts.length → omits.length = ts.length → FieldsTy L ts l → TidyAll l →
    surviveFields L vis omits ts l = l
  | [] => by
    intro vis omits _ _ _ _ ht _
    cases ts <;> simp only [FieldsTy] at ht
    simp [surviveFields]
  | v :: l => by
    intro vis omits hvis hp h1 h2 ht hv
    cases ts with
    | nil => simp only [FieldsTy] at ht
    | cons t ts =>
      simp only [FieldsTy] at ht
      simp only [TidyAll] at hv
      rcases vis with _ | ⟨vi, vis⟩
      · simp at h1
      rcases omits with _ | ⟨om, omits⟩
      · simp at h2
      simp only [PlainFields] at hp
      have hvi : vi = true := hvis vi (by simp)
      subst hvi
      simp only [surviveFields, Bool.true_and]
      rw [surviveFields_plain ts l vis omits (fun b hb => hvis b (by simp [hb])) hp.2.2 (by simpa using h1) (by simpa using h2) ht.2 hv.2, survive_plain t v hp.2.1 ht.1 hv.1]
      by_cases hc : (om && v.empty) = true
      · rw [Bool.and_eq_true] at hc
        have := empty_zero (hp.1 hc.1) hp.2.1 ht.1 hc.2
        simp [hc.1, hc.2, ← this]
      · simp [hc]
end

mutual
theorem encode_tidy (t : Ty) : (v : Val) → HasTy L t v → Tidy v → ∃ j, encode L t v = some j
  | .bool b => by intro _ _; simp [encode]
  | .int b => by intro _ _; simp [encode]
  | .float l => by intro ht hv; simp only [Tidy] at hv; cases l <;> simp_all [encode]
  | .str s => by intro _ _; simp [encode]
  | .bytes b => by intro _ _; simp [encode]
  | .time x m => by intro _ _; simp [encode]
  | .nil => by intro _ _; simp [encode]
  | .ref v => by
    intro ht hv
    cases t <;> simp only [HasTy] at ht
    simp only [encode]
    exact encode_tidy _ v ht hv
  | .slice l => by
    intro ht hv
    cases t <;> simp only [HasTy] at ht
    simp only [Tidy] at hv
    obtain ⟨js, h⟩ := encodeAll_tidy _ l ht hv
    simp [encode, h]
  | .map ks vs => by
    intro ht hv
    cases t <;> simp only [HasTy] at ht
    simp only [Tidy] at hv
    obtain ⟨js, h⟩ := encodeAll_tidy _ vs ht.2.2 hv.2
    simp [encode, h]
  | .struct l => by
    intro ht hv
    cases t <;> simp only [HasTy] at ht
    simp only [Tidy] at hv
    rename_i keys vis omits ts
    obtain ⟨x, h⟩ := encodeFields_tidy _ l keys vis omits ht.2.2.2.2 hv
    simp [encode, h]
  | .dyn t' v => by
    intro ht hv
    cases t <;> simp only [HasTy] at ht
    simp only [encode]
    exact encode_tidy t' v ht.2 hv
theorem encodeAll_tidy (t : Ty) : (l : List Val) → AllTy L t l → TidyAll l → ∃ js, encodeAll L t l = some js
  | [] => by intro _ _; simp [encodeAll]
  | v :: l => by
    intro ht hv
    simp only [AllTy] at ht
    simp only [TidyAll] at hv
    obtain ⟨j, h1⟩ := encode_tidy t v ht.1 hv.1
    obtain ⟨js, h2⟩ := encodeAll_tidy t l ht.2 hv.2
    simp [encodeAll, h1, h2]
theorem encodeFields_tidy (ts : List Ty) : (l : List Val) → ∀ keys vis omits, FieldsTy L ts l → TidyAll l → ∃ x, encodeFields L keys vis omits ts l = some x
  | [] => by
    intro keys vis omits ht hv
    cases ts <;> simp only [FieldsTy] at ht
    simp [encodeFields]
  | v :: l => by
    intro keys vis omits ht hv
    cases ts with
    | nil => simp only [FieldsTy] at ht
    | cons t ts =>
      simp only [FieldsTy] at ht
      simp only [TidyAll] at hv
      rcases keys with _ | ⟨k, keys⟩
      · simp [encodeFields]
      rcases vis with _ | ⟨vi, vis⟩
      · simp [encodeFields]
      rcases omits with _ | ⟨om, omits⟩
      · simp [encodeFields]
      obtain ⟨j, h1⟩ := encode_tidy t v ht.1 hv.1
      obtain ⟨x, h2⟩ := encodeFields_tidy ts l keys vis omits ht.2 hv.2
      simp only [encodeFields]
      split
      · exact ⟨_, by rw [h1, h2]; rfl⟩
      · exact ⟨x, h2⟩
end

/-! ## C121 -/

/-- **C121** (partial) A handler whose parameter has the type of the event gets exactly the value that was sent, for every type without hidden fields, interfaces, pointers to what may be nil and `omitempty` on slices, maps and
`[]byte`, and every value with valid strings, finite numbers and no monotonic clock readings. Missing: all other values; `C121_what_arrives` says what becomes of them. -/
theorem C121_roundtrip_partial {t : Ty} {v : Val} (hp : Plain t) (ht : HasTy L t v) (hv : Tidy v) : received L t t v = some (some v) := by
  obtain ⟨j, h⟩ := encode_tidy t v ht hv
  simp [received, h, decode_encode t v j ht h, survive_plain t v hp ht hv]

/-- **C121** For every type and value: the event can not be made (a number in it is not finite), or the handler is called, with what `survive` says. Decoding never fails. -/
theorem C121_what_arrives {t : Ty} {v : Val} (ht : HasTy L t v) : received L t t v = none ∨ received L t t v = some (some (survive L t v)) := by
  cases h : encode L t v with
  | none => left; simp [received, h]
  | some j => right; simp [received, h, decode_encode t v j ht h]

/-! ## handlers written against another version of the type -/

theorem named_place (k : List Char) {α : Type} : ∀ (keys : List (List Char)) (vis : List Bool) (ts : List Ty) (w : List α), w.length = ts.length →
    named k keys vis w = (place (fun x => decide (x = k)) keys vis ts).bind fun x => w[x.1]?
  | [], _, _, _, _ => by simp [named, place]
  | _ :: _, [], _, _, _ => by simp [named, place]
  | _ :: _, _ :: _, [], w, h => by cases w <;> simp_all [named, place]
  | _ :: _, _ :: _, _ :: _, [], h => by simp at h
  | x :: keys, vi :: vis, t :: ts, y :: w, h => by
    simp only [named, place, Bool.and_eq_true, decide_eq_true_eq]
    by_cases hc : vi = true ∧ x = k
    · simp [hc]
    · simp only [if_neg hc, named_place k keys vis ts w (by simpa using h), Option.bind_map]
      simp [Function.comp_def]

theorem place_type (p : List Char → Bool) : ∀ (keys : List (List Char)) (vis : List Bool) (ts : List Ty) (i : Nat) (t : Ty), place p keys vis ts = some (i, t) →
    ts[i]? = some t ∧ vis[i]? = some true ∧ ∃ k, keys[i]? = some k ∧ p k = true
  | [], _, _, _, _, h => by simp [place] at h
  | _ :: _, [], _, _, _, h => by simp [place] at h
  | _ :: _, _ :: _, [], _, _, h => by simp [place] at h
  | x :: keys, vi :: vis, t :: ts, i, u, h => by
    simp only [place, Bool.and_eq_true] at h
    split at h
    · next hc => simp only [Option.some.injEq, Prod.mk.injEq] at h; obtain ⟨rfl, rfl⟩ := h; simp [hc.1, hc.2]
    · simp only [Option.map_eq_some_iff, Prod.mk.injEq] at h
      obtain ⟨⟨i', t'⟩, h1, rfl, rfl⟩ := h
      have := place_type p keys vis ts i' t' h1
      simpa using this

theorem named_set {keys : List (List Char)} {vis : List Bool} {ts : List Ty} {acc : List Val} {k : List Char} {i : Nat} {t : Ty} (v : Val) (hl : acc.length = ts.length)
    (h : place (fun x => decide (x = k)) keys vis ts = some (i, t)) (k' : List Char) : named k' keys vis (acc.set i v) = if k' = k then some v else named k' keys vis acc := by
  rw [named_place k' keys vis ts _ (by simpa using hl), named_place k' keys vis ts acc hl]
  obtain ⟨h1, -, x, h3, h4⟩ := place_type _ keys vis ts i t h
  have hi : i < acc.length := by rw [hl]; exact (List.getElem?_eq_some_iff.1 h1).1
  simp only [decide_eq_true_eq] at h4
  subst h4
  by_cases hk : k' = x
  · subst hk
    simp [h, hi]
  · rw [if_neg hk]
    cases h' : place (fun x => decide (x = k')) keys vis ts with
    | none => rfl
    | some y =>
      obtain ⟨-, -, x', g3, g4⟩ := place_type _ keys vis ts y.1 y.2 h'
      simp only [decide_eq_true_eq] at g4
      subst g4
      have : i ≠ y.1 := by
        intro he
        rw [he, g3] at h3
        exact hk (Option.some.inj h3)
      simp [List.getElem?_set, this]

theorem place_none {p : List Char → Bool} : ∀ (keys : List (List Char)) (vis : List Bool) (ts : List Ty), (∀ k ∈ visible keys vis, p k = false) → place p keys vis ts = none
  | [], _, _, _ => by simp [place]
  | _ :: _, [], _, _ => by simp [place]
  | _ :: _, _ :: _, [], _ => by simp [place]
  | x :: keys, vi :: vis, t :: ts, h => by
    have ih := place_none keys vis ts fun k hk => h k (by simp only [visible, List.zip_cons_cons, List.filterMap_cons] at hk ⊢; split <;> simp_all)
    have : (vi && p x) = false := by
      cases vi with
      | false => rfl
      | true => simpa using h x (by simp [visible])
    simp [place, this, ih]

theorem named_some_iff {α : Type} (k : List Char) : ∀ (keys : List (List Char)) (vis : List Bool) (w : List α), keys.length = w.length → vis.length = w.length →
    ((∃ y, named k keys vis w = some y) ↔ k ∈ visible keys vis)
  | [], _, _, _, _ => by simp [named, visible]
  | _ :: _, [], _, _, _ => by simp [named, visible]
  | _ :: _, _ :: _, [], h, _ => by simp at h
  | x :: keys, vi :: vis, y :: w, h1, h2 => by
    have ih := named_some_iff k keys vis w (by simpa using h1) (by simpa using h2)
    simp only [visible] at ih
    simp only [named, visible, List.zip_cons_cons, List.filterMap_cons]
    cases vi with
    | false => simpa using ih
    | true =>
      by_cases hx : x = k
      · simp [hx]
      · have : k ≠ x := fun h => hx h.symm
        simp [hx, this, ih]

theorem surviveFields_length : ∀ (l : List Val) (vis omits : List Bool) (ts : List Ty), vis.length = ts.length → omits.length = ts.length → l.length = ts.length →
    (surviveFields L vis omits ts l).length = ts.length
  | [], vis, omits, ts, h1, h2, h3 => by cases ts <;> simp_all [surviveFields]
  | v :: l, vis, omits, [], h1, h2, h3 => by simp at h3
  | v :: l, [], omits, t :: ts, h1, h2, h3 => by simp at h1
  | v :: l, _ :: _, [], t :: ts, h1, h2, h3 => by simp at h2
  | v :: l, vi :: vis, om :: omits, t :: ts, h1, h2, h3 => by
    simp [surviveFields, surviveFields_length l vis omits ts (by simpa using h1) (by simpa using h2) (by simpa using h3)]

theorem FieldsTy_length : ∀ (ts : List Ty) (l : List Val), FieldsTy L ts l → l.length = ts.length
  | [], [], _ => rfl
  | t :: ts, v :: l, h => by simp only [FieldsTy] at h; simp [FieldsTy_length ts l h.2]
  | [], _ :: _, h => by simp [FieldsTy] at h
  | _ :: _, [], h => by simp [FieldsTy] at h

theorem zeros_length : ∀ ts : List Ty, (zeros ts).length = ts.length
  | [] => rfl
  | t :: ts => by simp [zeros, zeros_length ts]

theorem named_zeros (k : List Char) : ∀ (keys : List (List Char)) (vis : List Bool) (ts : List Ty), named k keys vis (zeros ts) = (named k keys vis ts).map Ty.zero
  | [], _, _ => by simp [named]
  | _ :: _, [], _ => by simp [named]
  | _ :: _, _ :: _, [] => by simp [named, zeros]
  | x :: keys, vi :: vis, t :: ts => by
    simp only [zeros, named]
    split
    · rfl
    · exact named_zeros k keys vis ts

theorem decodeFields_other {keysU : List (List Char)} {visU : List Bool} {tsU : List Ty} : ∀ (l : List Val) (keys : List (List Char)) (vis omits : List Bool) (ts : List Ty) (x : List (List Char) × List J) (acc : List Val),
    acc.length = tsU.length → keys.length = ts.length → vis.length = ts.length → omits.length = ts.length → (visible keys vis).Nodup → FieldsTy L ts l →
    (∀ k t t', named k keys vis ts = some t → named k keysU visU tsU = some t' → t = t') →
    (∀ k t, named k keys vis ts = some t → named k keysU visU tsU = none → ∀ k' ∈ visible keysU visU, L.fold k' ≠ L.fold k) →
    (∀ k t t', named k keys vis ts = some t → named k keysU visU tsU = some t' → named k keysU visU acc = some t'.zero) →
    encodeFields L keys vis omits ts l = some x →
    ∃ w, decodeFields L keysU visU tsU x.1 x.2 acc = some w ∧ w.length = tsU.length ∧
      (∀ k t, named k keysU visU tsU = some t → named k keysU visU w = match named k keys vis (surviveFields L vis omits ts l) with | some v => some v | none => named k keysU visU acc) ∧
      (∀ i : Nat, visU[i]? = some false → w[i]? = acc[i]?)
  | [] => by
    intro keys vis omits ts x acc hl h1 h2 h3 _ ht _ _ _ h
    cases ts <;> simp only [FieldsTy] at ht
    cases keys <;> simp at h1
    simp only [encodeFields, Option.some.injEq] at h; subst h
    exact ⟨acc, by simp [decodeFields], hl, by simp [named], fun _ _ => rfl⟩
  | v :: l => by
    intro keys vis omits ts x acc hl h1 h2 h3 hn ht hc hf hacc h
    cases ts with
    | nil => simp only [FieldsTy] at ht
    | cons t ts =>
    simp only [FieldsTy] at ht
    rcases keys with _ | ⟨k, keys⟩
    · simp at h1
    rcases vis with _ | ⟨vi, vis⟩
    · simp at h2
    rcases omits with _ | ⟨om, omits⟩
    · simp at h3
    have h1' : keys.length = ts.length := by simpa using h1
    have h2' : vis.length = ts.length := by simpa using h2
    have h3' : omits.length = ts.length := by simpa using h3
    have hl' := FieldsTy_length ts l ht.2
    have hs := surviveFields_length (L := L) l vis omits ts h2' h3' hl'
    have hk : vi = true → k ∉ visible keys vis := by
      intro hvi; subst hvi
      simp only [visible, List.zip_cons_cons, List.filterMap_cons, if_true, List.nodup_cons] at hn
      exact hn.1
    have hn' : (visible keys vis).Nodup := by
      simp only [visible, List.zip_cons_cons, List.filterMap_cons] at hn ⊢
      cases vi
      · simpa using hn
      · simp only [if_true, List.nodup_cons] at hn; exact hn.2
    have tail : ∀ k' u, named k' keys vis ts = some u → named k' (k :: keys) (vi :: vis) (t :: ts) = some u := by
      intro k' u hu
      have hm := (named_some_iff k' keys vis ts h1' h2').1 ⟨u, hu⟩
      have : ¬(vi = true ∧ k = k') := by rintro ⟨hvi, rfl⟩; exact hk hvi hm
      simp only [named, if_neg this, hu]
    have hc' : ∀ k' u u', named k' keys vis ts = some u → named k' keysU visU tsU = some u' → u = u' := fun k' u u' g => hc k' u u' (tail k' u g)
    have hf' : ∀ k' u, named k' keys vis ts = some u → named k' keysU visU tsU = none → ∀ k'' ∈ visible keysU visU, L.fold k'' ≠ L.fold k' := fun k' u g => hf k' u (tail k' u g)
    have hacc' : ∀ k' u u', named k' keys vis ts = some u → named k' keysU visU tsU = some u' → named k' keysU visU acc = some u'.zero := fun k' u u' g => hacc k' u u' (tail k' u g)
    simp only [encodeFields] at h
    by_cases hb : (vi && !(om && v.empty)) = true
    · rw [if_pos hb] at h
      simp only [Option.bind_eq_some_iff, Option.map_eq_some_iff] at h
      obtain ⟨j, g1, y, g2, rfl⟩ := h
      have hvi : vi = true := by cases vi <;> simp_all
      subst hvi
      have hkn : named k (k :: keys) (true :: vis) (t :: ts) = some t := by simp [named]
      have hrest : ∀ k', k' ≠ k → named k' (k :: keys) (true :: vis) (surviveFields L (true :: vis) (om :: omits) (t :: ts) (v :: l)) = named k' keys vis (surviveFields L vis omits ts l) := by
        intro k' hk'
        simp only [surviveFields, named]
        rw [if_neg (fun hx => hk' hx.2.symm)]
      have hhere : named k (k :: keys) (true :: vis) (surviveFields L (true :: vis) (om :: omits) (t :: ts) (v :: l)) = some (survive L t v) := by
        simp only [surviveFields, named, hb, if_true, and_self]
      have hknone : named k keys vis (surviveFields L vis omits ts l) = none := by
        cases hx : named k keys vis (surviveFields L vis omits ts l) with
        | none => rfl
        | some z => exact absurd ((named_some_iff k keys vis _ (by rw [hs, h1']) (by rw [hs, h2'])).1 ⟨z, hx⟩) (hk rfl)
      cases hp : place (fun z => decide (z = k)) keysU visU tsU with
      | none =>
        have hnone : named k keysU visU tsU = none := by rw [named_place k keysU visU tsU tsU rfl, hp]; rfl
        have hfield : field L k keysU visU tsU = none := by
          simp only [field, hp]
          exact place_none keysU visU tsU fun k' hk' => by simpa using hf k t hkn hnone k' hk'
        obtain ⟨w, w1, w2, w3, w4⟩ := decodeFields_other l keys vis omits ts y acc hl h1' h2' h3' hn' ht.2 hc' hf' hacc' g2
        refine ⟨w, by simp only [decodeFields, hfield]; exact w1, w2, ?_, w4⟩
        intro k' t' ht'
        have : k' ≠ k := by rintro rfl; rw [hnone] at ht'; cases ht'
        rw [hrest k' this]
        exact w3 k' t' ht'
      | some z =>
        obtain ⟨i, t0⟩ := z
        obtain ⟨p1, p2, -⟩ := place_type _ keysU visU tsU i t0 hp
        have hsome : named k keysU visU tsU = some t0 := by rw [named_place k keysU visU tsU tsU rfl, hp]; simpa using p1
        have hte := hc k t t0 hkn hsome
        subst hte
        have hset := fun k' => named_set (acc := acc) (survive L t v) hl hp k'
        obtain ⟨w, w1, w2, w3, w4⟩ := decodeFields_other l keys vis omits ts y (acc.set i (survive L t v)) (by simpa using hl) h1' h2' h3' hn' ht.2 hc' hf' (by
          intro k' u u' q1 q2
          rw [hset k']
          have : k' ≠ k := by
            rintro rfl
            exact hk rfl ((named_some_iff k' keys vis ts h1' h2').1 ⟨u, q1⟩)
          rw [if_neg this]
          exact hacc' k' u u' q1 q2) g2
        refine ⟨w, by simp only [decodeFields, field, hp, decode_encode t v j ht.1 g1, Option.bind_some]; exact w1, w2, ?_, ?_⟩
        · intro k' t' ht'
          rw [w3 k' t' ht', hset k']
          by_cases hk' : k' = k
          · subst hk'
            rw [hhere, hknone]
            simp
          · rw [hrest k' hk', if_neg hk']
        · intro i' hi'
          rw [w4 i' hi']
          have : i ≠ i' := by rintro rfl; rw [p2] at hi'; simp at hi'
          simp [List.getElem?_set, this]
    · rw [if_neg hb] at h
      obtain ⟨w, w1, w2, w3, w4⟩ := decodeFields_other l keys vis omits ts x acc hl h1' h2' h3' hn' ht.2 hc' hf' hacc' h
      refine ⟨w, w1, w2, ?_, w4⟩
      intro k' t' ht'
      rw [w3 k' t' ht']
      simp only [surviveFields, named, if_neg hb]
      by_cases hx : vi = true ∧ k = k'
      · obtain ⟨rfl, rfl⟩ := hx
        have hkn : named k (k :: keys) (true :: vis) (t :: ts) = some t := by simp [named]
        have hknone : named k keys vis (surviveFields L vis omits ts l) = none := by
          cases hx : named k keys vis (surviveFields L vis omits ts l) with
          | none => rfl
          | some z => exact absurd ((named_some_iff k keys vis _ (by rw [hs, h1']) (by rw [hs, h2'])).1 ⟨z, hx⟩) (hk rfl)
        have hte := hc k t t' hkn ht'
        subst hte
        simp [hknone, hacc k t t hkn ht']
      · simp [if_neg hx]

/-- **C121** Handlers with another version of the type, or with less than all of its fields: fields are matched by name. A field that both types have, with the same type, gets what it gets for a handler with the sender's
type; a field only the handler's type has is zero; fields only the sender's type has are ignored (if no name differs by upper and lower case only). -/
theorem C121_other_version {keysT keysU : List (List Char)} {visT visU omT omU : List Bool} {tsT tsU : List Ty} {l : List Val}
    (ht : HasTy L (.struct keysT visT omT tsT) (.struct l))
    (hc : ∀ k t t', named k keysT visT tsT = some t → named k keysU visU tsU = some t' → t = t')
    (hf : ∀ k t, named k keysT visT tsT = some t → named k keysU visU tsU = none → ∀ k' ∈ visible keysU visU, L.fold k' ≠ L.fold k) :
    received L (.struct keysT visT omT tsT) (.struct keysU visU omU tsU) (.struct l) = none ∨
    ∃ w, received L (.struct keysT visT omT tsT) (.struct keysU visU omU tsU) (.struct l) = some (some (.struct w)) ∧
      (∀ k t, named k keysU visU tsU = some t → named k keysU visU w = match named k keysT visT (surviveFields L visT omT tsT l) with | some v => some v | none => some t.zero) ∧
      (∀ i : Nat, visU[i]? = some false → w[i]? = (zeros tsU)[i]?) := by
  simp only [HasTy] at ht
  obtain ⟨h1, h2, h3, h4, h5⟩ := ht
  simp only [received, encode, Option.map_map]
  cases h : encodeFields L keysT visT omT tsT l with
  | none => left; rfl
  | some x =>
    right
    obtain ⟨w, w1, w2, w3, w4⟩ := decodeFields_other (keysU := keysU) (visU := visU) (tsU := tsU) l keysT visT omT tsT x (zeros tsU) (zeros_length tsU) h1 h2 h3 h4 h5 hc hf (by
      intro k t t' _ g
      rw [named_zeros, g]; rfl) h
    refine ⟨w, by simp [decode, Ty.base, Ty.ptrs, wrap, w1], ?_, w4⟩
    intro k t hk
    rw [w3 k t hk, named_zeros, hk]
    rfl

/-! ## what is lost -/

/-- **C121** The handler does not get the data of a field that is not exported or tagged `-`: it is zero, whatever was sent. -/
theorem C121_hidden_lost (L : Lib) (k : List Char) (om : Bool) (t : Ty) (v : Val) :
    received L (.struct [k] [false] [om] [t]) (.struct [k] [false] [om] [t]) (.struct [v]) = some (some (.struct [t.zero])) := by
  simp [received, encode, encodeFields, decode, Ty.base, Ty.ptrs, wrap, decodeFields, zeros]

/-- **C121** A byte that is no UTF-8 arrives as U+FFFD. -/
theorem C121_bytes_lost (L : Lib) (b : Nat) : received L .str .str (.str [.bad b]) = some (some (.str [.ch (Char.ofNat 0xFFFD)])) := by
  simp [received, encode, decode, Ty.base, Ty.ptrs, wrap, clean, ofChars]

/-- **C121** A number in a field of interface type arrives as a float, rounded to the nearest one. -/
theorem C121_interface_changed (L : Lib) (lo hi i : Int) : received L .iface .iface (.dyn (.int lo hi) (.int i)) = some (some (.dyn .float (.float (some (L.round (.int i)))))) := by
  simp [received, encode, decode, Ty.base, Ty.ptrs, wrap, generic]

/-- **C121** A struct in a field of interface type arrives as a map. -/
theorem C121_struct_changed (L : Lib) (k : List Char) (b : Bool) :
    received L .iface .iface (.dyn (.struct [k] [true] [false] [.bool]) (.struct [.bool b])) = some (some (.dyn (.map .iface) (.map [ofChars k] [.dyn .bool (.bool b)]))) := by
  simp [received, encode, encodeFields, decode, Ty.base, Ty.ptrs, wrap, generic, genericEntries, put]

/-- **C121** A pointer to a nil pointer arrives as nil. -/
theorem C121_pointer_lost (L : Lib) (t : Ty) : received L (.ptr (.ptr t)) (.ptr (.ptr t)) (.ref .nil) = some (some .nil) := by
  simp [received, encode, decode, Ty.zero]

/-- **C121** An empty slice in a field with `omitempty` arrives as nil; without `omitempty` it arrives empty. -/
theorem C121_empty_slice (L : Lib) (k : List Char) (om : Bool) (t : Ty) :
    received L (.struct [k] [true] [om] [.slice t]) (.struct [k] [true] [om] [.slice t]) (.struct [.slice []]) = some (some (.struct [if om then .nil else .slice []])) := by
  cases om <;> simp [received, encode, encodeFields, encodeAll, Val.empty, decode, decodeAll, Ty.base, Ty.ptrs, wrap, decodeFields, zeros, Ty.zero, field, place]

/-- **C121** A time arrives without the reading of the monotonic clock. -/
theorem C121_monotonic_lost (L : Lib) (t : Int) : received L .time .time (.time t true) = some (some (.time t false)) := by
  simp [received, encode, decode, Ty.base, Ty.ptrs, wrap, L.time_ok]

/-- **C121** An event with a number that is not finite in a visible field can not be made: making it panics. -/
theorem C121_not_finite (L : Lib) (u : Ty) (k : List Char) (om : Bool) (keys : List (List Char)) (vis omits : List Bool) (ts : List Ty) (vs : List Val) :
    received L (.struct (k :: keys) (true :: vis) (om :: omits) (.float :: ts)) u (.struct (.float none :: vs)) = none := by
  simp [received, encode, encodeFields, Val.empty]

/-- **C121** A handler in whose type a field of the same name has another type is never called: a text for a number … -/
theorem C121_other_type (L : Lib) (k : List Char) (lo hi : Int) (s : List Piece) : received L (.struct [k] [true] [false] [.str]) (.struct [k] [true] [false] [.int lo hi]) (.struct [.str s]) = some none := by
  simp [received, encode, encodeFields, decode, Ty.base, Ty.ptrs, decodeFields, field, place]

/-- **C121** … or a number that does not fit. -/
theorem C121_out_of_range (L : Lib) (k : List Char) (lo hi lo' hi' i : Int) (h : ¬(lo' ≤ i ∧ i ≤ hi')) :
    received L (.struct [k] [true] [false] [.int lo hi]) (.struct [k] [true] [false] [.int lo' hi']) (.struct [.int i]) = some none := by
  simp [received, encode, encodeFields, decode, Ty.base, Ty.ptrs, decodeFields, field, place]
  omega

/-- **C121** A field whose name differs only by upper and lower case from that of a sent field gets its data. -/
theorem C121_case (L : Lib) (k k' : List Char) (b : Bool) (h : L.fold k' = L.fold k) : received L (.struct [k] [true] [false] [.bool]) (.struct [k'] [true] [false] [.bool]) (.struct [.bool b]) = some (some (.struct [.bool b])) := by
  by_cases hk : k' = k <;> simp [received, encode, encodeFields, decode, Ty.base, Ty.ptrs, decodeFields, field, place, zeros, h, hk, wrap]

/-! ## examples -/
namespace Demo

/-- a library -/
def lib : Lib where
  b64 b := List.replicate (Encodable.encode b) 'A'
  unb64 s := Encodable.decode s.length
  b64_ok b := by simp
  timeText t := List.replicate (Encodable.encode t) '0'
  parseTime s := Encodable.decode s.length
  time_ok t := by rw [List.length_replicate]; exact Encodable.encodek t
  round l := l
  round_round _ := rfl
  fold s := s.map Char.toLower

def int64 : Ty := .int (-9223372036854775808) 9223372036854775807
/-- `struct { Name string; Price int64 }` -/
def item : Ty := .struct [['N', 'a', 'm', 'e'], ['P', 'r', 'i', 'c', 'e']] [true, true] [false, false] [.str, int64]
/-- `struct { ID string; Items []*item; Notes map[string]string; At time.Time; Total int64 "json:,omitempty" }` -/
def order : Ty :=
  .struct [['I', 'D'], ['I', 't', 'e', 'm', 's'], ['N', 'o', 't', 'e', 's'], ['A', 't'], ['T', 'o', 't', 'a', 'l']] [true, true, true, true, true] [false, false, false, false, true] [.str, .slice (.ptr item), .map .str, .time, int64]
def text (s : String) : List Piece := ofChars s.toList
def anOrder : Val :=
  .struct [.str (text "o1"), .slice [.ref (.struct [.str (text "pen"), .int 250]), .nil], .map [text "gift"] [.str (text "yes")], .time 1700000000 false, .int 0]

theorem order_ty : HasTy lib order anOrder := by
  simp only [order, anOrder, HasTy, FieldsTy, AllTy, item, int64, and_true, true_and]
  simp [visible]
theorem order_plain : Plain order := by
  simp [order, Plain, PlainFields, item, int64, Ty.mayBeNil, Ty.emptyNotNil]
theorem order_tidy : Tidy anOrder := by
  simp [anOrder, Tidy, TidyAll, text, ofChars]

/-- `C121_roundtrip_partial` applies -/
example : received lib order order anOrder = some (some anOrder) := C121_roundtrip_partial order_plain order_ty order_tidy

def newKeys : List (List Char) := [['I', 'D'], ['C', 'u', 'r', 'r', 'e', 'n', 'c', 'y'], ['T', 'o', 't', 'a', 'l'], ['I', 't', 'e', 'm', 's']]
/-- a handler written against a newer type that has no notes but a currency -/
def order2 : Ty := .struct newKeys [true, true, true, true] ([false, false, false, false]) [.str, .str, int64, .slice (.ptr item)]

/-- `C121_other_version` applies -/
example : ∃ w, received lib order order2 anOrder = some (some (.struct w)) ∧ named ['I', 'D'] newKeys [true, true, true, true] w = some (.str (text "o1")) ∧
    named ['C', 'u', 'r', 'r', 'e', 'n', 'c', 'y'] newKeys [true, true, true, true] w = some (.str []) ∧ named ['T', 'o', 't', 'a', 'l'] newKeys [true, true, true, true] w = some (.int 0) := by
  have := C121_other_version (L := lib) (keysT := [['I', 'D'], ['I', 't', 'e', 'm', 's'], ['N', 'o', 't', 'e', 's'], ['A', 't'], ['T', 'o', 't', 'a', 'l']]) (visT := [true, true, true, true, true]) (omT := [false, false, false, false, true])
    (tsT := [.str, .slice (.ptr item), .map .str, .time, int64]) (keysU := newKeys) (visU := [true, true, true, true]) (omU := [false, false, false, false])
    (tsU := [.str, .str, int64, .slice (.ptr item)]) order_ty (by
      intro k t t' h1 h2
      simp only [named, true_and, newKeys] at h1 h2
      split at h1
      · next h => subst h; simp at h1 h2; grind
      split at h1
      · next h => subst h; simp at h1 h2; grind
      split at h1
      · next h => subst h; simp at h1 h2
      split at h1
      · next h => subst h; simp at h1 h2
      split at h1
      · next h => subst h; simp at h1 h2; grind
      simp at h1) (by
      intro k t h1 h2 k' hk'
      simp only [named, true_and, newKeys] at h1 h2
      simp only [visible, newKeys, List.zip_cons_cons, List.filterMap_cons, if_true, List.zip_nil_left, List.filterMap_nil, List.mem_cons, List.not_mem_nil, or_false] at hk'
      split at h1
      · next h => subst h; simp at h2
      split at h1
      · next h => subst h; simp at h2
      split at h1
      · next h => subst h; rcases hk' with rfl | rfl | rfl | rfl <;> decide +kernel
      split at h1
      · next h => subst h; rcases hk' with rfl | rfl | rfl | rfl <;> decide +kernel
      split at h1
      · next h => subst h; simp at h2
      simp at h1)
  rcases this with h | ⟨w, h1, h2, -⟩
  · obtain ⟨j, hj⟩ := encode_tidy order anOrder order_ty order_tidy
    simp only [order, anOrder] at hj
    simp [received, hj] at h
  · refine ⟨w, h1, ?_, ?_, ?_⟩
    · rw [h2 ['I', 'D'] .str (by simp [named, newKeys])]
      simp [named, surviveFields, survive, Val.empty, text, readable, clean, ofChars]
    · rw [h2 ['C', 'u', 'r', 'r', 'e', 'n', 'c', 'y'] .str (by simp [named, newKeys])]
      simp [named, surviveFields, Ty.zero]
    · rw [h2 ['T', 'o', 't', 'a', 'l'] int64 (by simp [named, newKeys])]
      simp [named, surviveFields, survive, Val.empty, int64, Ty.zero]

end Demo

end Ddd.Json
