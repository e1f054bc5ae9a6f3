import Verif.Props.Load
import Verif.Props.Mirror
/-!
# C68: what was saved is what is loaded
-/
set_option linter.unusedVariables false
set_option linter.unusedSimpArgs false
namespace Ddd
open Spec Load

variable {env : Env} {opts : Opts}

/-- the rows below `e` in table `tm`, in a store that mirrors the aggregate -/
theorem rows_below {kids : Kids Node} {old : Node → Option (List (Nat × List Node))} {rec : Bool} {row : Node → Node → Option Model} {st st' : Store} {e : Node} {ide tm : Nat}
    (hreach : Reach kids none e)
    (m1 : ∀ n p m, Reach kids none p → Child kids p n → row n p = some m → st' m.key = some m)
    (m2 : ∀ n p m, Removed kids old rec n p → row n p = some m → st' m.key = none)
    (m3 : ∀ k, (∀ n p m, Placed kids old rec n p → row n p = some m → m.key ≠ k) → st' k = st k)
    (hfk : ∀ n p m, Reach kids none p → Child kids p n → row n p = some m → m.typ = tm → (m.parent = ide ↔ p = e))
    (hcomplete : ∀ m, st m.key = some m → m.typ = tm → m.parent = ide → ∃ n p m', Placed kids old rec n p ∧ row n p = some m' ∧ m'.key = m.key) (m : Model) :
    (st' m.key = some m ∧ m.typ = tm ∧ m.parent = ide) ↔ ∃ n, Child kids e n ∧ row n e = some m ∧ m.typ = tm := by
  constructor
  · rintro ⟨h1, h2, h3⟩
    have hp : ∃ n p m', Placed kids old rec n p ∧ row n p = some m' ∧ m'.key = m.key := by
      by_contra hc
      have := m3 m.key fun n p m' h4 h5 h6 => hc ⟨n, p, m', h4, h5, h6⟩
      exact hc (hcomplete m (by rw [← this]; exact h1) h2 h3)
    obtain ⟨n, p, m', h4, h5, h6⟩ := hp
    rcases h4 with ⟨h4, h7⟩ | h4
    · have := m1 n p m' h4 h7 h5
      rw [h6, h1] at this
      cases this
      have := (hfk n p m h4 h7 h5 h2).mp h3
      subst this
      exact ⟨n, h7, h5, h2⟩
    · have := m2 n p m' h4 h5
      rw [h6, h1] at this; cases this
  · rintro ⟨n, h1, h2, h3⟩
    exact ⟨m1 n e m hreach h1 h2, h3, (hfk n e m hreach h1 h2 h3).mpr rfl⟩

theorem forall₂_of_exists {α β : Type} {R : α → β → Prop} {l : List β} (h : ∀ b ∈ l, ∃ a, R a b) : ∃ l', List.Forall₂ R l' l := by
  induction l with
  | nil => exact ⟨[], .nil⟩
  | cons b l ih =>
    obtain ⟨a, ha⟩ := h b (by simp)
    obtain ⟨l', hl⟩ := ih fun b hb => h b (by simp [hb])
    exact ⟨a :: l', .cons ha hl⟩

theorem forall₂_nodup {α β : Type} {R : α → β → Prop} (hf : ∀ a b b', R a b → R a b' → b = b') {l : List α} {l' : List β} (h : List.Forall₂ R l l') (hn : l'.Nodup) : l.Nodup := by
  induction h with
  | nil => exact List.nodup_nil
  | @cons a b l l' hab ht ih =>
    rw [List.nodup_cons] at hn ⊢
    refine ⟨fun ha => ?_, ih hn.2⟩
    obtain ⟨b', hz⟩ := forall₂_zip_mem ht a ha
    have hb' := forall₂_zip ht a b' hz
    rw [hf a b b' hab hb'] at hn
    exact hn.1 (List.of_mem_zip hz).2

theorem forall₂_mem_right {α β : Type} {R : α → β → Prop} {l : List α} {l' : List β} (h : List.Forall₂ R l l') {b : β} (hb : b ∈ l') : ∃ a ∈ l, R a b := by
  induction h with
  | nil => simp at hb
  | cons hab _ ih =>
    rcases List.mem_cons.1 hb with rfl | hb
    · exact ⟨_, by simp, hab⟩
    · obtain ⟨a, ha, hr⟩ := ih hb
      exact ⟨a, by simp [ha], hr⟩

theorem forall₂_mem_left {α β : Type} {R : α → β → Prop} {l : List α} {l' : List β} (h : List.Forall₂ R l l') {a : α} (ha : a ∈ l) : ∃ b ∈ l', R a b := by
  obtain ⟨b, hz⟩ := forall₂_zip_mem h a ha
  exact ⟨b, (List.of_mem_zip hz).2, forall₂_zip h a b hz⟩

theorem forall₂_comp {α β γ : Type} {R : α → β → Prop} {S : β → γ → Prop} {T : α → γ → Prop} (hT : ∀ a b c, R a b → S b c → T a c)
    {l : List α} {l' : List β} {l'' : List γ} (h : List.Forall₂ R l l') (h' : List.Forall₂ S l' l'') : List.Forall₂ T l l'' := by
  induction h generalizing l'' with
  | nil => cases h'; exact .nil
  | cons hab _ ih => cases h' with | cons hbc ht => exact .cons (hT _ _ _ hab hbc) (ih ht)

/-- **C68** Save an aggregate, then load an entity `e` of it (in any later command, from the resulting store) with a slice of children of one type:
the slice receives exactly one new entity for every child of `e` stored in that table, with the identifier and the data of the saved child, and nothing else.
Hypotheses: those of C03 (`C03_mirror`: executor applies the writes, rows are a function of entity and parent, ...); the foreign key of a row tells its parent apart from other parents with children in that table;
the store held no rows below `e` that the save did not know of; the converter of the child type queries by the parent's ID and restores identifier and data. -/
theorem C68_saved_is_loaded {s s' : St} (h : persist env opts s = (.ok (), s')) (hd : opts.dryRun = false) (hno : ∀ p k, env.hasHook p k = false)
    {row : Heap → Node → Node → Option Model} (hrow : RowOf env row) (hone : OnePlace s.now none)
    (hapart : ∀ n p p', Removed s.now s.kidPool opts.recursiveDelete n p → Reach s.now none p' → ¬ Child s.now p' n)
    (hdist : ∀ n p n' p' m m', Placed s.now s.kidPool opts.recursiveDelete n p → Placed s.now s.kidPool opts.recursiveDelete n' p' →
      row s'.heap n p = some m → row s'.heap n' p' = some m' → m.key = m'.key → n = n')
    (st : Store) (hsync : ∀ n m, po s n = some m → st m.key = some m)
    (hstable : ∀ n p m, Reach s.now none p → Child s.now p n → (∃ q k, Had s.kidPool q k n) → row s'.heap n p = some m →
      ∃ m0, po s n = some m0 ∧ m0.key = m.key)
    (hclean : ∀ n p k, Reach s.now none p → Has s.now p k n → Had s.kidPool p k n → s.heap.dirtyNode n = false → row s'.heap n p = po s n)
    -- the entity and the table of the children
    {e : Ptr} {tm te : Nat} (hreach : Reach s.now none (some e))
    (hfk : ∀ n p m, Reach s.now none p → Child s.now p n → row s'.heap n p = some m → m.typ = tm → (m.parent = (s'.heap.attr e).id ↔ p = some e))
    (hcomplete : ∀ m, st m.key = some m → m.typ = tm → m.parent = (s'.heap.attr e).id →
      ∃ n p m', Placed s.now s.kidPool opts.recursiveDelete n p ∧ row s'.heap n p = some m' ∧ m'.key = m.key) :
    ∃ t, s'.trace = s.trace ++ t ∧ ∀ st' : Store, st.applyAll (written t) = some st' →
    ∀ (lenv : LEnv) (c : Converter), Reads lenv.find st' → Honest lenv → lenv.reg te = some c →
      (∀ par : Obj, c.e2m (zero te) (some par) = .ok ⟨tm, 0, par.id, 0⟩) →
      (∀ n m, Child s.now (some e) n → row s'.heap n (some e) = some m → m.typ = tm →
        ∃ p, n = some p ∧ ∀ o, c.m2e m (zero te) = .ok o → o.id = (s'.heap.attr p).id ∧ o.data = (s'.heap.attr p).data) →
    ∀ (par : Nat) (args : List Arg) (l l' : LSt) (v : Var), Apart par args l → .slice v .pointer te ∈ args → Load.build lenv par args l = (.ok (), l') →
      (l'.obj par).id = (s'.heap.attr e).id → (s'.heap.attr e).id ≠ 0 →
      ∃ ns ps, l'.slices v = l.slices v ++ ps ∧ ps.Nodup ∧ (∀ p ∈ ps, l.next ≤ p) ∧ ns.Nodup ∧
        (∀ q : Ptr, q ∈ ns ↔ Child s.now (some e) (some q) ∧ ∃ m, row s'.heap (some q) (some e) = some m ∧ m.typ = tm) ∧
        List.Forall₂ (fun q p => (l'.obj p).id = (s'.heap.attr q).id ∧ (l'.obj p).data = (s'.heap.attr q).data) ns ps := by
  obtain ⟨t, ht, _, hmir⟩ := C03_mirror env opts h hd hno hrow hone hapart hdist st hsync hstable hclean
  refine ⟨t, ht, ?_⟩
  intro st' hst lenv c hr hh hreg hq hfaith par args l l' v hap harg hb hidpar hid0
  obtain ⟨m1, m2, m3⟩ := hmir st' hst
  have hrows := rows_below (row := row s'.heap) (ide := (s'.heap.attr e).id) (tm := tm) hreach m1 m2 m3 hfk hcomplete
  obtain ⟨_, _, hargs, _⟩ := C67_build hr hh hap hb
  obtain ⟨c', q, ms, ps, a1, a2, a3, a4, a5, a6, a7, a8⟩ := hargs _ harg
  rw [hreg] at a1; cases a1
  rw [hq] at a2; cases a2
  have hsel : ∀ m, m ∈ ms ↔ ∃ n, Child s.now (some e) n ∧ row s'.heap n (some e) = some m ∧ m.typ = tm := by
    intro m
    rw [a4, ← hrows m, hidpar]
    simp [RowsFor, Matches, hid0]
  -- one child per row
  obtain ⟨ns, hns⟩ := forall₂_of_exists (R := fun (q : Ptr) m => Child s.now (some e) (some q) ∧ row s'.heap (some q) (some e) = some m ∧ m.typ = tm ∧
      ∀ o, c.m2e m (zero te) = .ok o → o.id = (s'.heap.attr q).id ∧ o.data = (s'.heap.attr q).data) (l := ms) (by
    intro m hm
    obtain ⟨n, b1, b2, b3⟩ := (hsel m).mp hm
    obtain ⟨p, rfl, b4⟩ := hfaith n m b1 b2 b3
    exact ⟨p, b1, b2, b3, b4⟩)
  refine ⟨ns, ps, a5, a6, a7, ?_, ?_, ?_⟩
  · refine forall₂_nodup (fun a b b' h1 h2 => ?_) hns a3
    have := h1.2.1.symm.trans h2.2.1
    exact Option.some.inj this
  · intro q
    constructor
    · intro hq'
      obtain ⟨m, _, b1, b2, b3, _⟩ := forall₂_mem_left hns hq'
      exact ⟨b1, m, b2, b3⟩
    · rintro ⟨b1, m, b2, b3⟩
      obtain ⟨q', hq', c1, c2, _⟩ := forall₂_mem_right hns ((hsel m).mpr ⟨some q, b1, b2, b3⟩)
      have := hdist _ _ _ _ _ _ (.inl ⟨hreach, b1⟩) (.inl ⟨hreach, c1⟩) b2 c2 rfl
      cases this
      exact hq'
  · exact forall₂_comp (fun a b d h1 h2 => h1.2.2.2 _ h2) hns a8

/-- **C68** (the entity itself) After the save, loading an entity of the aggregate by its identifier finds it and gives the saved state.
Hypotheses: those of C03; the converter of the entity's type queries by ID and restores identifier and data. -/
theorem C68_saved_is_found {s s' : St} (h : persist env opts s = (.ok (), s')) (hd : opts.dryRun = false) (hno : ∀ p k, env.hasHook p k = false)
    {row : Heap → Node → Node → Option Model} (hrow : RowOf env row) (hone : OnePlace s.now none)
    (hapart : ∀ n p p', Removed s.now s.kidPool opts.recursiveDelete n p → Reach s.now none p' → ¬ Child s.now p' n)
    (hdist : ∀ n p n' p' m m', Placed s.now s.kidPool opts.recursiveDelete n p → Placed s.now s.kidPool opts.recursiveDelete n' p' →
      row s'.heap n p = some m → row s'.heap n' p' = some m' → m.key = m'.key → n = n')
    (st : Store) (hsync : ∀ n m, po s n = some m → st m.key = some m)
    (hstable : ∀ n p m, Reach s.now none p → Child s.now p n → (∃ q k, Had s.kidPool q k n) → row s'.heap n p = some m →
      ∃ m0, po s n = some m0 ∧ m0.key = m.key)
    (hclean : ∀ n p k, Reach s.now none p → Has s.now p k n → Had s.kidPool p k n → s.heap.dirtyNode n = false → row s'.heap n p = po s n)
    -- the entity, its parent and its row
    {e : Ptr} {par : Node} {m : Model} (hreach : Reach s.now none par) (hchild : Child s.now par (some e)) (hm : row s'.heap (some e) par = some m)
    (hmid : m.id = (s'.heap.attr e).id) :
    ∃ t, s'.trace = s.trace ++ t ∧ ∀ st' : Store, st.applyAll (written t) = some st' →
    ∀ (lenv : LEnv) (c : Converter) (p : Nat) (args : List Arg) (l : LSt), Reads lenv.find st' → Honest lenv → lenv.reg (l.obj p).typ = some c →
      c.e2m (l.obj p) none = .ok ⟨m.typ, (s'.heap.attr e).id, 0, 0⟩ → (l.obj p).id = (s'.heap.attr e).id → (s'.heap.attr e).id ≠ 0 →
      (∀ o, c.m2e m (l.obj p) = .ok o → o.id = (s'.heap.attr e).id ∧ o.data = (s'.heap.attr e).data) →
      (∀ l', Apart p args l → Load.build lenv p args l = (.ok (), l') → (l'.obj p).id = (s'.heap.attr e).id ∧ (l'.obj p).data = (s'.heap.attr e).data) ∧
      (AllWork lenv → (∀ a ∈ args, Fine a) → ∃ l', Load.build lenv p args l = (.ok (), l')) := by
  obtain ⟨t, ht, _, hmir⟩ := C03_mirror env opts h hd hno hrow hone hapart hdist st hsync hstable hclean
  refine ⟨t, ht, ?_⟩
  intro st' hst lenv c p args l hr hh hreg hq hid hid0 hback
  obtain ⟨m1, _, _⟩ := hmir st' hst
  have hrow' : RowsFor st' ⟨m.typ, (s'.heap.attr e).id, 0, 0⟩ m := ⟨m1 _ _ _ hreach hchild hm, rfl, fun _ => hmid, fun h => absurd rfl h, fun h => absurd rfl h⟩
  constructor
  · intro l' hap hb
    obtain ⟨_, ⟨c', q, m', a1, a2, a3, a4⟩, _⟩ := C67_build hr hh hap hb
    rw [hreg] at a1; cases a1
    rw [hq] at a2; cases a2
    have hk : m'.key = m.key := by
      have h1 := a3.2.1
      have h2 := a3.2.2.1 hid0
      simp only at h1 h2
      simp [Model.key, h1, h2, hmid]
    have := a3.1
    rw [hk, hrow'.1] at this
    cases this
    exact hback _ a4
  · intro hw hg
    exact ((C67_found_iff hr hw hg (by rw [hid]; exact hid0) hreg hq).1).mpr ⟨m, hrow'⟩

/-! ## A concrete case: the save of `Demo.mixed'`, then a load -/
namespace Demo
open Load.Demo (std rowsStore listFind reads_list)

/-- the rows after the save -/
def after : List Model := [⟨1, 10, 0, 0⟩, ⟨1, 1, 10, 0⟩, ⟨1, 5, 10, 0⟩, ⟨1, 4, 10, 0⟩, ⟨1, 2, 10, 0⟩, ⟨1, 77, 5, 5⟩]

theorem mixed_after {st' : Store} (h1 : ∀ i ∈ [1, 5, 4, 2], st' (1, i) = some ⟨1, i, 10, 0⟩) (h2 : st' (1, 10) = some ⟨1, 10, 0, 0⟩) (h3 : st' (1, 3) = none)
    (h4 : ∀ k, k ∉ [(1, 10), (1, 1), (1, 5), (1, 4), (1, 2), (1, 3)] → st' k = stored k) : st' = rowsStore after := by
  funext k
  by_cases hk : k ∈ [(1, 10), (1, 1), (1, 5), (1, 4), (1, 2), (1, 3)]
  · simp only [List.mem_cons, List.not_mem_nil, or_false] at hk
    rcases hk with rfl | rfl | rfl | rfl | rfl | rfl
    · rw [h2]; decide
    · rw [h1 1 (by decide)]; decide
    · rw [h1 5 (by decide)]; decide
    · rw [h1 4 (by decide)]; decide
    · rw [h1 2 (by decide)]; decide
    · rw [h3]; decide
  · rw [h4 k hk]
    simp only [List.mem_cons, List.not_mem_nil, or_false, not_or] at hk
    obtain ⟨a, b⟩ := k
    simp only [Prod.mk.injEq, not_and] at hk
    obtain ⟨k1, k2, k3, k4, k5, k6⟩ := hk
    unfold stored rowsStore after
    simp only [Prod.mk.injEq, List.find?_cons, Model.key, List.find?_nil]
    by_cases ha : a = 1
    · subst ha
      have e1 := k1 rfl; have e2 := k2 rfl; have e3 := k3 rfl; have e4 := k4 rfl; have e5 := k5 rfl; have e6 := k6 rfl
      by_cases h77 : b = 77
      · subst h77; simp
      · simp [e1, e2, e3, e4, e5, e6, h77, Ne.symm e1, Ne.symm e2, Ne.symm e3, Ne.symm e4, Ne.symm e5, Ne.symm h77]
    · have : ¬ 1 = a := fun h => ha h.symm
      simp [ha, this]

/-- object 0: an order with ID 10, nothing else -/
def fresh10 : LSt where
  obj p := { zero 1 with id := if p = 0 then 10 else 0 }
  next := 1
  slices _ := []
  ptrs _ := none
  log := []

def afterEnv : LEnv where
  reg t := some (std t)
  find := listFind after

/-- C68: all hypotheses are met by the save of `mixed'` and a load of order 10 with its items; items 1, 5, 4, 2 come back -/
example : ∃ l', Load.build afterEnv 0 [.slice 0 .pointer 1] fresh10 = (.ok (), l') ∧
    ∃ ns ps, l'.slices 0 = ps ∧ ns.Nodup ∧ (∀ q : Ptr, q ∈ ns ↔ Child mixed'.now (some 10) (some q)) ∧ List.Forall₂ (fun q p => (l'.obj p).id = q ∧ (l'.obj p).data = 0) ns ps := by
  obtain ⟨t0, st', ht0, happ, r1, r2, r3, r4⟩ := mixed_saved
  have hst := mixed_after r1 r2 r3 r4
  have hk := mixed_ok
  generalize (persist okEnv stdOpts mixed').2 = s' at hk ht0
  have hr : Reach mixed'.now none (some 10) := .step .root ⟨0, [some 10], by decide, by decide⟩
  have hattr : ∀ q, (s'.heap.attr q).id = q ∧ (s'.heap.attr q).data = 0 := by
    intro q; simp [mixed_attr hk, mixed', mixed, orderSt, orderHeap, heapOf, stdAttr]
  have hlen : Reads afterEnv.find st' := by rw [hst]; exact reads_list (by decide)
  have hhon : Honest afterEnv := by
    refine ⟨fun t q e h => ?_, fun t c hc => ?_⟩
    · simp [afterEnv, listFind] at h
    · simp only [afterEnv, Option.some.injEq] at hc; subst hc
      exact ⟨fun o p e h => by simp [std] at h, fun m o e h => by simp [std] at h⟩
  have hwork : AllWork afterEnv :=
    ⟨fun t => ⟨_, rfl⟩, fun t q => ⟨_, rfl⟩, fun t c hc o p => by simp only [afterEnv, Option.some.injEq] at hc; subst hc; exact ⟨_, rfl⟩,
      fun t c hc m o => by simp only [afterEnv, Option.some.injEq] at hc; subst hc; exact ⟨_, rfl⟩⟩
  have hap : Apart 0 [.slice 0 .pointer 1] fresh10 := ⟨by decide, (by intro a ha p hp; cases List.mem_singleton.1 ha; cases hp),
    (by intro a ha; cases List.mem_singleton.1 ha; simp [target]), by decide, by decide, by decide⟩
  obtain ⟨t, ht, hfound⟩ := C68_saved_is_found hk rfl (fun _ _ => rfl) stdRow_of mixed_one mixed_apart (mixed_dist hk) stored mixed_sync (mixed_stable hk) (mixed_clean hk)
    (e := 10) (par := none) .root ⟨0, [some 10], by decide, by decide⟩ (mixed_row hk 10 none) (hattr 10).1.symm
  have htt : t = t0 := by
    rw [ht0] at ht
    exact (List.append_cancel_left ht).symm
  subst htt
  obtain ⟨f1, f2⟩ := hfound st' happ afterEnv (std 1) 0 [.slice 0 .pointer 1] fresh10 hlen hhon rfl
    (by rw [(hattr 10).1]; rfl) (by rw [(hattr 10).1]; rfl) (by rw [(hattr 10).1]; decide)
    (by intro o ho; simp only [std, Res.ok.injEq] at ho; rw [← ho, (hattr 10).1, (hattr 10).2]; exact ⟨rfl, rfl⟩)
  obtain ⟨l', hb⟩ := f2 hwork (by simp [Fine])
  refine ⟨l', hb, ?_⟩
  obtain ⟨t, ht, hload⟩ := C68_saved_is_loaded hk rfl (fun _ _ => rfl) stdRow_of mixed_one mixed_apart (mixed_dist hk) stored mixed_sync (mixed_stable hk) (mixed_clean hk)
    (e := 10) (tm := 1) (te := 1) hr
    (by
      intro n p m _ ⟨k, hc⟩ e _
      rw [(hattr 10).1]
      rcases mixed_has hc with ⟨rfl, _, rfl⟩ | ⟨rfl, _, rfl | rfl⟩ | ⟨rfl, _, rfl | rfl⟩ <;> rw [mixed_row hk] at e <;> simp only [Option.some.injEq] at e <;> subst e
      · simp [nodeID]
      all_goals simp [mixed_id hk])
    (by
      intro m hm h1 h2
      rw [(hattr 10).1] at h2
      have hkid : ∀ i, m.key = (1, i) → i ∈ [1, 5, 4, 2, 3] → ∃ n p m', Placed mixed'.now mixed'.kidPool stdOpts.recursiveDelete n p ∧ stdRow s'.heap n p = some m' ∧ m'.key = m.key := by
        intro i hkey hi
        refine ⟨some i, some 10, _, ?_, mixed_row hk i (some 10), by rw [hkey]; rfl⟩
        simp only [List.mem_cons, List.not_mem_nil, or_false] at hi
        rcases hi with rfl | rfl | rfl | rfl | rfl
        · exact .inl ⟨hr, 1, [some 1, some 5], by decide, by decide⟩
        · exact .inl ⟨hr, 1, [some 1, some 5], by decide, by decide⟩
        · exact .inl ⟨hr, 2, [some 4, some 2], by decide, by decide⟩
        · exact .inl ⟨hr, 2, [some 4, some 2], by decide, by decide⟩
        · refine .inr (Or.inl ⟨⟨1, hr, ⟨[some 1, some 5], by decide⟩, ⟨_, [some 1, some 2, some 3], rfl, by decide, by decide⟩, ?_⟩, ?_⟩)
          · intro h'; have := mixed_has h'; revert this; simp
          · rintro ⟨p', k', _, h', _⟩; have := mixed_has h'; revert this; simp
      unfold stored at hm
      split at hm
      · simp only [Option.some.injEq] at hm; rw [← hm] at h2; cases h2
      · split at hm
        · rename_i hx
          refine hkid m.key.2 (by rw [← hx.1]) ?_
          simp only [List.mem_cons, List.not_mem_nil, or_false]
          rcases hx.2 with h | h | h | h <;> rw [h] <;> simp
        · split at hm
          · simp only [Option.some.injEq] at hm; rw [← hm] at h2; cases h2
          · cases hm)
  rw [ht0] at ht
  have htt := List.append_cancel_left ht
  rw [← htt] at hload
  obtain ⟨ns, ps, g1, g2, g3, g4, g5, g6⟩ := hload st' happ afterEnv (std 1) hlen hhon rfl (fun _ => rfl)
    (by
      intro n m ⟨k, hc⟩ e _
      rcases mixed_has hc with ⟨h, _⟩ | ⟨_, _, rfl | rfl⟩ | ⟨_, _, rfl | rfl⟩
      · cases h
      all_goals
        refine ⟨_, rfl, fun o ho => ?_⟩
        rw [mixed_row hk] at e
        simp only [Option.some.injEq] at e; subst e
        simp only [std, Res.ok.injEq] at ho
        rw [← ho, (hattr _).1, (hattr _).2]; exact ⟨rfl, rfl⟩)
    0 [.slice 0 .pointer 1] fresh10 l' 0 hap (by simp) hb (f1 l' hap hb).1 (by rw [(hattr 10).1]; decide)
  refine ⟨ns, ps, by rw [g1]; rfl, g4, ?_, ?_⟩
  · intro q
    rw [g5 q]
    exact ⟨fun h => h.1, fun h => ⟨h, _, mixed_row hk q (some 10), rfl⟩⟩
  · refine g6.imp fun q p h => ?_
    rw [(hattr q).1, (hattr q).2] at h; exact h

end Demo
end Ddd
