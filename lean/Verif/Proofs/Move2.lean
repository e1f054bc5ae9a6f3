import Verif.Proofs.Move
/-! `handleEntityMove`: complete description of success and result. -/
set_option linter.unusedSectionVars false
set_option linter.unusedVariables false
namespace Ddd
variable {N : Type} [DecidableEq N]

/-- record number `i` lists `e`. -/
def InRec (cs : List (Change N)) (i : Nat) (e : N) : Prop := ∃ c, cs[i]? = some c ∧ e ∈ c.children

/-- type of record number `i`. -/
def RecTy (cs : List (Change N)) (i : Nat) : Option ChangeType := (cs[i]?).map Change.ctype

/-- two different records list `e` (among the processed occurrences `P`). -/
def Twice (P : Nat → N → Prop) (e : N) : Prop := ∃ i j, i ≠ j ∧ P i e ∧ P j e

/-- loop invariant of `handleEntityMove` after the occurrences `P` have been visited. -/
structure MInv (cs : List (Change N)) (P : Nat → N → Prop) (st : MoveSt N) : Prop where
  len : st.items.length = cs.length
  inrec : ∀ i e, P i e → InRec cs i e
  items : ∀ i c, cs[i]? = some c → ∃ it, st.items[i]? = some it ∧ it.ctype = c.ctype ∧ it.parent = c.parent ∧
    it.key = c.key ∧ (∀ e, e ∈ it.children ↔ e ∈ c.children ∧ ¬ (Twice P e ∧ P i e)) ∧
    it.children.Sublist c.children ∧
    ((∀ e, ¬ P i e) → it = Item.ofChange c)
  lookN : ∀ e, st.lookup e = none ↔ ∀ i, ¬ P i e
  lookS : ∀ e i, st.lookup e = some i → P i e ∧ ∀ j, P j e → j ≠ i → RecTy cs i = some .delete
  legit : ∀ i j e, P i e → P j e → i ≠ j →
    (RecTy cs i = some .new ∧ RecTy cs j = some .delete) ∨ (RecTy cs i = some .delete ∧ RecTy cs j = some .new)
  extra1 : ∀ x ∈ st.extra, ∃ e i c, x = ⟨.dirty, c.parent, c.key, [e]⟩ ∧ cs[i]? = some c ∧ c.ctype = .new ∧
    P i e ∧ Twice P e
  extra2 : ∀ e, Twice P e → e ∈ st.extra.flatMap Change.children
  extra3 : (st.extra.flatMap Change.children).Nodup

theorem MInv.init (cs : List (Change N)) :
    MInv cs (fun _ _ => False) { items := cs.map Item.ofChange, seen := [], extra := [] } where
  len := by simp
  inrec := by simp
  items := by
    intro i c h
    refine ⟨Item.ofChange c, by simp [h], rfl, rfl, rfl, ?_, ?_, fun _ => rfl⟩
    · simp [Item.children, Item.ofChange]
    · simp [Item.children, Item.ofChange]
  lookN := by simp [MoveSt.lookup]
  lookS := by simp [MoveSt.lookup]
  legit := by simp
  extra1 := by simp
  extra2 := by simp [Twice]
  extra3 := by simp

/-- the occurrences after visiting `e` in record `ii`. -/
def addOcc (P : Nat → N → Prop) (ii : Nat) (e : N) : Nat → N → Prop := fun i x => P i x ∨ (i = ii ∧ x = e)

theorem MInv.ctype {cs : List (Change N)} {P : Nat → N → Prop} {st : MoveSt N} (h : MInv cs P st) (i : Nat) :
    (st.items[i]?).map Item.ctype = RecTy cs i := by
  unfold RecTy
  cases hc : cs[i]? with
  | none =>
    have : st.items[i]? = none := by
      rw [List.getElem?_eq_none_iff] at hc ⊢; rw [h.len]; exact hc
    simp [this]
  | some c =>
    obtain ⟨it, h1, h2, _⟩ := h.items i c hc
    simp [h1, h2]

theorem Twice_addOcc {P : Nat → N → Prop} {ii : Nat} {e x : N} (hn : ¬ P ii e) :
    Twice (addOcc P ii e) x ↔ Twice P x ∨ (x = e ∧ ∃ i, P i e) := by
  unfold Twice addOcc
  constructor
  · rintro ⟨i, j, hij, hi, hj⟩
    rcases hi with hi | ⟨rfl, rfl⟩ <;> rcases hj with hj | ⟨rfl, h⟩
    · exact Or.inl ⟨i, j, hij, hi, hj⟩
    · subst h; exact Or.inr ⟨rfl, i, hi⟩
    · exact Or.inr ⟨rfl, j, hj⟩
    · exact absurd rfl hij
  · rintro (⟨i, j, hij, hi, hj⟩ | ⟨rfl, i, hi⟩)
    · exact ⟨i, j, hij, Or.inl hi, Or.inl hj⟩
    · exact ⟨i, ii, fun h => hn (h ▸ hi), Or.inl hi, Or.inr ⟨rfl, rfl⟩⟩

theorem MInv.step {cs : List (Change N)} {P : Nat → N → Prop} {st st' : MoveSt N} (h : MInv cs P st)
    {ii : Nat} {e : N} (hin : InRec cs ii e) (hn : ¬ P ii e) (hv : moveVisit ii e st = some st') :
    MInv cs (addOcc P ii e) st' := by
  have hlook := moveVisit_lookup hv
  have lookN' : ∀ x, st'.lookup x = none ↔ ∀ i, ¬ addOcc P ii e i x := by
    intro x
    rw [hlook]
    by_cases hx : x = e
    · subst hx
      simp only [if_true]
      constructor
      · intro hc; cases hc
      · intro hc; exact absurd (Or.inr ⟨rfl, rfl⟩) (hc ii)
    · simp only [hx, if_false, h.lookN, addOcc, and_false, or_false]
  have inrec' : ∀ i x, addOcc P ii e i x → InRec cs i x := by
    rintro i x (hp | ⟨rfl, rfl⟩)
    · exact h.inrec i x hp
    · exact hin
  rcases moveVisit_cases hv with ⟨hl0, rfl⟩ | ⟨pi, prev, hlk, hp, hpt, hdel, rfl⟩
  · -- first occurrence
    have hno := (h.lookN e).1 hl0
    have htw : ∀ x, Twice (addOcc P ii e) x ↔ Twice P x := by
      intro x; rw [Twice_addOcc hn]
      constructor
      · rintro (h | ⟨rfl, i, hi⟩)
        · exact h
        · exact absurd hi (hno i)
      · exact Or.inl
    have hnt : ¬ Twice P e := fun ⟨i, _, _, hi, _⟩ => hno i hi
    refine { len := h.len, inrec := inrec', items := ?_, lookN := lookN', lookS := ?_, legit := ?_,
             extra1 := ?_, extra2 := ?_, extra3 := h.extra3 }
    · intro i c hc
      obtain ⟨it, h1, h2, h3, h4, h5, h6, h7⟩ := h.items i c hc
      refine ⟨it, h1, h2, h3, h4, ?_, h6, fun hno' => h7 fun x hx => hno' x (Or.inl hx)⟩
      intro x
      rw [h5, htw]
      constructor
      · rintro ⟨ha, hb⟩
        refine ⟨ha, ?_⟩
        rintro ⟨ht, hq | ⟨_, rfl⟩⟩
        · exact hb ⟨ht, hq⟩
        · exact hnt ht
      · rintro ⟨ha, hb⟩
        exact ⟨ha, fun ⟨ht, hq⟩ => hb ⟨ht, Or.inl hq⟩⟩
    · intro x i hx
      rw [hlook] at hx
      by_cases hxe : x = e
      · subst hxe
        simp only [if_true, Option.some.injEq] at hx
        subst hx
        refine ⟨Or.inr ⟨rfl, rfl⟩, ?_⟩
        rintro j (hj | ⟨rfl, _⟩) hji
        · exact absurd hj (hno j)
        · exact absurd rfl hji
      · simp only [hxe, if_false] at hx
        obtain ⟨ha, hb⟩ := h.lookS x i hx
        refine ⟨Or.inl ha, ?_⟩
        rintro j (hj | ⟨_, rfl⟩) hji
        · exact hb j hj hji
        · exact absurd rfl hxe
    · rintro i j x (hi | ⟨rfl, rfl⟩) (hj | ⟨rfl, hx⟩) hij
      · exact h.legit i j x hi hj hij
      · subst hx; exact absurd hi (hno i)
      · exact absurd hj (hno j)
      · exact absurd rfl hij
    · intro x hx
      obtain ⟨y, i, c, h1, h2, h3, h4, h5⟩ := h.extra1 x hx
      exact ⟨y, i, c, h1, h2, h3, Or.inl h4, (htw y).2 h5⟩
    · intro x hx; exact h.extra2 x ((htw x).1 hx)
  · -- move
    obtain ⟨hPpi, hlast⟩ := h.lookS e pi hlk
    have hne : pi ≠ ii := fun hh => hn (hh ▸ hPpi)
    have htyp : RecTy cs pi = some .new := by rw [← h.ctype, hp]; simp [hpt]
    have htyi : RecTy cs ii = some .delete := by rw [← h.ctype]; exact hdel
    have honly : ∀ j, P j e → j = pi := by
      intro j hj
      by_contra hjp
      have := hlast j hj hjp
      rw [htyp] at this; cases this
    have hnt : ¬ Twice P e := by
      rintro ⟨i, j, hij, hi, hj⟩
      exact hij ((honly i hi).trans (honly j hj).symm)
    have htw : ∀ x, Twice (addOcc P ii e) x ↔ Twice P x ∨ x = e := by
      intro x; rw [Twice_addOcc hn]
      exact or_congr Iff.rfl ⟨fun hh => hh.1, fun hh => ⟨hh, pi, hPpi⟩⟩
    obtain ⟨cp, hcp, hep⟩ := h.inrec pi e hPpi
    obtain ⟨itp, hitp, hcty, hcpar, hckey, _⟩ := h.items pi cp hcp
    have hprev : prev = itp := by rw [hp] at hitp; simpa using hitp
    subst hprev
    refine { len := by simp [h.len], inrec := inrec', items := ?_, lookN := lookN', lookS := ?_, legit := ?_,
             extra1 := ?_, extra2 := ?_, extra3 := ?_ }
    · intro i c hc
      obtain ⟨it, h1, h2, h3, h4, h5, h6, h7⟩ := h.items i c hc
      simp only [List.getElem?_modify, h1]
      by_cases hi : i = ii ∨ i = pi
      · refine ⟨it.remove e, ?_, by simp [h2], by simp [h3], by simp [h4], ?_, ?_, ?_⟩
        · rcases hi with rfl | rfl
          · simp [hne]
          · simp [Ne.symm hne]
        · intro x
          rw [Item.remove_children, List.mem_filter, h5, htw]
          simp only [ne_eq, decide_not, Bool.not_eq_eq_eq_not, Bool.not_true, decide_eq_false_iff_not]
          constructor
          · rintro ⟨⟨ha, hb⟩, hxe⟩
            refine ⟨ha, ?_⟩
            rintro ⟨ht | ht, hq | ⟨_, hq⟩⟩
            · exact hb ⟨ht, hq⟩
            · exact hxe hq
            · exact hxe ht
            · exact hxe hq
          · rintro ⟨ha, hb⟩
            refine ⟨⟨ha, fun ⟨ht, hq⟩ => hb ⟨Or.inl ht, Or.inl hq⟩⟩, ?_⟩
            rintro rfl
            refine hb ⟨Or.inr rfl, ?_⟩
            rcases hi with rfl | rfl
            · exact Or.inr ⟨rfl, rfl⟩
            · exact Or.inl hPpi
        · rw [Item.remove_children]; exact List.filter_sublist.trans h6
        · intro hno'
          rcases hi with rfl | rfl
          · exact absurd (Or.inr ⟨rfl, rfl⟩) (hno' e)
          · exact absurd (Or.inl hPpi) (hno' e)
      · have hi1 : i ≠ ii := fun hh => hi (Or.inl hh)
        have hi2 : i ≠ pi := fun hh => hi (Or.inr hh)
        refine ⟨it, by simp [hi1.symm, hi2.symm], h2, h3, h4, ?_, h6, fun hno' => h7 fun x hx => hno' x (Or.inl hx)⟩
        intro x
        rw [h5, htw]
        constructor
        · rintro ⟨ha, hb⟩
          refine ⟨ha, ?_⟩
          rintro ⟨ht | rfl, hq | ⟨hq, _⟩⟩
          · exact hb ⟨ht, hq⟩
          · exact hi1 hq
          · exact hi2 (honly i hq)
          · exact hi1 hq
        · rintro ⟨ha, hb⟩
          exact ⟨ha, fun ⟨ht, hq⟩ => hb ⟨Or.inl ht, Or.inl hq⟩⟩
    · intro x i hx
      rw [hlook] at hx
      by_cases hxe : x = e
      · subst hxe
        simp only [if_true, Option.some.injEq] at hx
        subst hx
        exact ⟨Or.inr ⟨rfl, rfl⟩, fun j _ _ => htyi⟩
      · simp only [hxe, if_false] at hx
        obtain ⟨ha, hb⟩ := h.lookS x i hx
        refine ⟨Or.inl ha, ?_⟩
        rintro j (hj | ⟨_, rfl⟩) hji
        · exact hb j hj hji
        · exact absurd rfl hxe
    · rintro i j x (hi | ⟨rfl, rfl⟩) (hj | ⟨rfl, hx⟩) hij
      · exact h.legit i j x hi hj hij
      · subst hx; rw [honly i hi]; exact Or.inl ⟨htyp, htyi⟩
      · rw [honly j hj]; exact Or.inr ⟨htyi, htyp⟩
      · exact absurd rfl hij
    · intro x hx
      rcases List.mem_append.1 hx with hx | hx
      · obtain ⟨y, i, c, h1, h2, h3, h4, h5⟩ := h.extra1 x hx
        exact ⟨y, i, c, h1, h2, h3, Or.inl h4, (htw y).2 (Or.inl h5)⟩
      · simp only [List.mem_singleton] at hx
        refine ⟨e, pi, cp, ?_, hcp, by rw [← hcty]; exact hpt, Or.inl hPpi, (htw e).2 (Or.inr rfl)⟩
        rw [hx, hcpar, hckey]
    · intro x hx
      rw [List.flatMap_append, List.mem_append]
      rcases (htw x).1 hx with hx | rfl
      · exact Or.inl (h.extra2 x hx)
      · right; simp
    · rw [List.flatMap_append, List.nodup_append]
      refine ⟨h.extra3, by simp, ?_⟩
      rintro a ha b hb rfl
      simp at hb
      subst hb
      obtain ⟨x, hx, hax⟩ := List.mem_flatMap.1 ha
      obtain ⟨y, i, c, h1, _, _, _, h5⟩ := h.extra1 x hx
      rw [h1] at hax
      simp at hax
      subst hax
      exact hnt h5

theorem MInv.fail {cs : List (Change N)} {P : Nat → N → Prop} {st : MoveSt N} (h : MInv cs P st)
    {ii : Nat} {e : N} (hin : InRec cs ii e) (hn : ¬ P ii e) (hv : moveVisit ii e st = none) :
    ∃ i, P i e ∧ i ≠ ii ∧ ¬ (RecTy cs i = some .new ∧ RecTy cs ii = some .delete) := by
  unfold moveVisit at hv
  split at hv
  · cases hv
  · next pi hl =>
    obtain ⟨hP, _⟩ := h.lookS e pi hl
    refine ⟨pi, hP, fun hh => hn (hh ▸ hP), ?_⟩
    rintro ⟨h1, h2⟩
    obtain ⟨c1, hc1, _⟩ := h.inrec pi e hP
    obtain ⟨c2, hc2, _⟩ := hin
    obtain ⟨it1, hi1, ht1, _⟩ := h.items pi c1 hc1
    obtain ⟨it2, hi2, ht2, _⟩ := h.items ii c2 hc2
    rw [hi1, hi2] at hv
    simp only [RecTy, hc1, hc2, Option.map_some, Option.some.injEq] at h1 h2
    simp [ht1, ht2, h1, h2] at hv

/-- `cs` contains every entity at most once, except for pairs (new, delete). -/
def Legit (cs : List (Change N)) : Prop :=
  ∀ i j e, InRec cs i e → InRec cs j e → i ≠ j →
    (RecTy cs i = some .new ∧ RecTy cs j = some .delete) ∨ (RecTy cs i = some .delete ∧ RecTy cs j = some .new)

/-- in every delete record, entities that are also newly placed elsewhere are among the last two. -/
def Late (cs : List (Change N)) : Prop :=
  ∀ c ∈ cs, c.ctype = .delete → ∀ j x, j + 2 < c.children.length → c.children[j]? = some x →
    ∀ i, InRec cs i x → RecTy cs i ≠ some .new

/-- occurrences of the records before `ii`, plus `pre` in record `ii`. -/
def Pre (cs : List (Change N)) (ii : Nat) (pre : List N) : Nat → N → Prop :=
  fun i x => (i < ii ∧ InRec cs i x) ∨ (i = ii ∧ x ∈ pre)

theorem addOcc_Pre (cs : List (Change N)) (ii : Nat) (pre : List N) (e : N) :
    addOcc (Pre cs ii pre) ii e = Pre cs ii (pre ++ [e]) := by
  funext i x
  apply propext
  simp only [addOcc, Pre, List.mem_append, List.mem_singleton]
  constructor
  · rintro ((h | ⟨h1, h2⟩) | ⟨h1, h2⟩)
    · exact Or.inl h
    · exact Or.inr ⟨h1, Or.inl h2⟩
    · exact Or.inr ⟨h1, Or.inr h2⟩
  · rintro (h | ⟨h1, h2 | h2⟩)
    · exact Or.inl (Or.inl h)
    · exact Or.inl (Or.inr ⟨h1, h2⟩)
    · exact Or.inr ⟨h1, h2⟩

theorem visitAll_inv {cs : List (Change N)} {ii : Nat} {c : Change N} (hc : cs[ii]? = some c)
    (hnd : c.children.Nodup) : ∀ (suf pre : List N) (st : MoveSt N), c.children = pre ++ suf →
    MInv cs (Pre cs ii pre) st →
    match suf.foldlM (fun st e => moveVisit ii e st) st with
    | some st' => MInv cs (Pre cs ii c.children) st'
    | none => ∃ e i, i < ii ∧ InRec cs i e ∧ InRec cs ii e ∧
        ¬ (RecTy cs i = some .new ∧ RecTy cs ii = some .delete) := by
  intro suf
  induction suf with
  | nil =>
    intro pre st hcc hinv
    simp only [List.foldlM_nil]
    simp at hcc
    change MInv cs (Pre cs ii c.children) st
    rw [hcc]; exact hinv
  | cons e suf ih =>
    intro pre st hcc hinv
    rw [List.foldlM_cons]
    have hin : InRec cs ii e := ⟨c, hc, by rw [hcc]; simp⟩
    have hepre : e ∉ pre := by
      rw [hcc] at hnd
      exact fun h => (List.nodup_append.1 hnd).2.2 e h e (by simp) rfl
    have hn : ¬ Pre cs ii pre ii e := by
      rintro (⟨h, _⟩ | ⟨_, h⟩)
      · omega
      · exact hepre h
    cases hv : moveVisit ii e st with
    | none =>
      obtain ⟨i, hi, hne, hbad⟩ := hinv.fail hin hn hv
      rcases hi with ⟨hlt, hi⟩ | ⟨h, _⟩
      · exact ⟨e, i, hlt, hi, hin, hbad⟩
      · exact absurd h hne
    | some st' =>
      have := hinv.step hin hn hv
      rw [addOcc_Pre] at this
      exact ih (pre ++ [e]) st' (by simp [hcc]) this

theorem Pre_succ {cs : List (Change N)} {ii : Nat} {c : Change N} (hc : cs[ii]? = some c) :
    Pre cs ii c.children = Pre cs (ii + 1) [] := by
  funext i x
  apply propext
  simp only [Pre, List.not_mem_nil, and_false, or_false]
  constructor
  · rintro (⟨h, h2⟩ | ⟨rfl, h2⟩)
    · exact ⟨by omega, h2⟩
    · exact ⟨by omega, c, hc, h2⟩
  · rintro ⟨h1, c', hc', hx⟩
    by_cases h : i < ii
    · exact Or.inl ⟨h, c', hc', hx⟩
    · have : i = ii := by omega
      subst this
      rw [hc] at hc'; simp at hc'; subst hc'
      exact Or.inr ⟨rfl, hx⟩

theorem sortChanges_rank (cs : List (Change N)) {i j : Nat} {a b : Change N} (hij : i < j)
    (hi : (sortChanges cs)[i]? = some a) (hj : (sortChanges cs)[j]? = some b) : a.ctype.rank ≤ b.ctype.rank := by
  have : (sortChanges cs).Pairwise (fun a b => a.ctype.rank ≤ b.ctype.rank) := by
    unfold sortChanges
    exact List.pairwise_insertionSort _ _
  rw [List.getElem?_eq_some_iff] at hi hj
  obtain ⟨hi, rfl⟩ := hi
  obtain ⟨hj, rfl⟩ := hj
  exact List.pairwise_iff_getElem.1 this i j hi hj hij

theorem outer_inv (cs0 : List (Change N)) (hnd : ∀ c ∈ cs0, c.children.Nodup) (k : Nat) :
    let cs := sortChanges cs0
    k ≤ cs.length →
    match (List.range k).foldlM moveInner { items := cs.map Item.ofChange, seen := [], extra := [] } with
    | some st => MInv cs (Pre cs k []) st ∧
        ∀ ii c, ii < k → cs[ii]? = some c → c.ctype = .delete → ∀ j x, j + 2 < c.children.length →
          c.children[j]? = some x → ∀ i, InRec cs i x → RecTy cs i ≠ some .new
    | none => ¬ Legit cs ∨ ¬ Late cs := by
  intro cs
  have hndcs : ∀ c ∈ cs, c.children.Nodup := fun c hc => hnd c ((List.perm_insertionSort _ _).mem_iff.1 hc)
  induction k with
  | zero =>
    intro _
    refine ⟨?_, by intro ii c h; omega⟩
    have h0 : Pre cs 0 [] = fun _ _ => False := by
      funext i x; apply propext; simp [Pre]
    rw [h0]
    exact MInv.init cs
  | succ k ih =>
    intro hk
    have ih := ih (by omega)
    rw [List.range_succ, List.foldlM_append]
    cases hst : (List.range k).foldlM moveInner { items := cs.map Item.ofChange, seen := [], extra := [] } with
    | none =>
      rw [hst] at ih
      exact ih
    | some st =>
      rw [hst] at ih
      obtain ⟨hinv, hlate⟩ := ih
      change match [k].foldlM moveInner st with | some st => _ | none => _
      simp only [List.foldlM_cons, List.foldlM_nil]
      obtain ⟨c, hc⟩ : ∃ c, cs[k]? = some c := ⟨cs[k], List.getElem?_eq_getElem (by omega)⟩
      have hcm : c ∈ cs := List.mem_of_getElem? hc
      have hndc := hndcs c hcm
      obtain ⟨it, hit, hty, _, _, _, _, hun⟩ := hinv.items k c hc
      have hitc : it = Item.ofChange c := hun (by
        intro e h
        rcases h with ⟨h, _⟩ | ⟨_, h⟩
        · omega
        · simp at h)
      subst hitc
      have hmove := moveInner_eq st k _ hit (by simp [Item.ofChange]) (by simpa [Item.ofChange] using hndc)
      rcases hmove with ⟨⟨j, x, hj, hx, pi, hl, hpn, hdel⟩, hnone⟩ | ⟨hno, heq⟩
      · rw [hnone]
        right
        intro hlt
        rw [hinv.ctype] at hpn hdel
        have hcd : c.ctype = .delete := by simpa [RecTy, hc] using hdel
        exact hlt c hcm hcd j x hj hx pi (hinv.inrec _ _ (hinv.lookS x pi hl).1) hpn
      · rw [heq]
        have hva := visitAll_inv hc hndc c.children [] st (by simp) hinv
        have hb : (Item.ofChange c).buf = c.children := rfl
        rw [hb]
        cases hf : c.children.foldlM (fun st e => moveVisit k e st) st with
        | none =>
          rw [hf] at hva
          obtain ⟨e, i, hik, hi, hkk, hbad⟩ := hva
          left
          intro hleg
          rcases hleg i k e hi hkk (by omega) with h | ⟨h1, h2⟩
          · exact hbad h
          · obtain ⟨ci, hci, _⟩ := hi
            have := sortChanges_rank cs0 hik hci hc
            simp only [RecTy, hci, hc, Option.map_some, Option.some.injEq] at h1 h2
            rw [h1, h2] at this
            simp [ChangeType.rank] at this
        | some st' =>
          rw [hf] at hva
          have hva : MInv cs (Pre cs k c.children) st' := hva
          refine ⟨by rw [← Pre_succ hc]; exact hva, ?_⟩
          intro ii c' hii hc' hdel' j x hj hx i hi hnew
          by_cases hik : ii < k
          · exact hlate ii c' hik hc' hdel' j x hj hx i hi hnew
          · have : ii = k := by omega
            subst this
            rw [hc] at hc'; simp at hc'; subst hc'
            -- the new record comes first
            obtain ⟨ci, hci, hxi⟩ := hi
            have hcin : ci.ctype = .new := by simpa [RecTy, hci] using hnew
            have hilt : i < ii := by
              by_contra hge
              rcases Nat.lt_or_eq_of_le (Nat.le_of_not_lt hge) with h | h
              · have := sortChanges_rank cs0 h hc hci
                rw [hdel', hcin] at this
                simp [ChangeType.rank] at this
              · subst h; rw [hc] at hci; simp at hci; subst hci; rw [hdel'] at hcin; cases hcin
            have hPi : Pre cs ii [] i x := Or.inl ⟨hilt, ci, hci, hxi⟩
            cases hl : st.lookup x with
            | none => exact (hinv.lookN x).1 hl i hPi
            | some pi =>
              obtain ⟨hpi, hpl⟩ := hinv.lookS x pi hl
              by_cases hpii : pi = i
              · subst hpii
                exact hno j x hj hx ⟨pi, hl, by rw [hinv.ctype]; exact hnew, by
                  rw [hinv.ctype]; simp [RecTy, hc, hdel']⟩
              · have hpd := hpl i hPi (Ne.symm hpii)
                have hplt : pi < ii := by
                  rcases hpi with ⟨h, _⟩ | ⟨_, h⟩
                  · exact h
                  · simp at h
                have hpP : Pre cs ii c.children pi x := Or.inl ⟨hplt, hinv.inrec _ _ hpi⟩
                have hkP : Pre cs ii c.children ii x := Or.inr ⟨rfl, List.mem_of_getElem? hx⟩
                rcases hva.legit pi ii x hpP hkP (by omega) with ⟨h1, _⟩ | ⟨_, h2⟩
                · rw [hpd] at h1; cases h1
                · simp [RecTy, hc, hdel'] at h2

theorem Pre_full (cs : List (Change N)) : Pre cs cs.length [] = InRec cs := by
  funext i x
  apply propext
  simp only [Pre, List.not_mem_nil, and_false, or_false, and_iff_right_iff_imp]
  rintro ⟨c, hc, _⟩
  exact (List.getElem?_eq_some_iff.1 hc).1

/-- `handleEntityMove` succeeds exactly on legit change lists whose moved entities are late in their group. -/
theorem handleEntityMove_isSome (cs0 : List (Change N)) (hnd : ∀ c ∈ cs0, c.children.Nodup) :
    (handleEntityMove cs0).isSome ↔ Legit (sortChanges cs0) ∧ Late (sortChanges cs0) := by
  have h := outer_inv cs0 hnd (sortChanges cs0).length (Nat.le_refl _)
  unfold handleEntityMove
  simp only [List.length_map]
  cases hst : (List.range (sortChanges cs0).length).foldlM moveInner
      { items := (sortChanges cs0).map Item.ofChange, seen := [], extra := [] } with
  | none =>
    rw [hst] at h
    simp only [Option.map_none, Option.isSome_none, Bool.false_eq_true, false_iff, not_and_or]
    exact h
  | some st =>
    rw [hst] at h
    simp only [Option.map_some, Option.isSome_some, true_iff]
    obtain ⟨hinv, hl⟩ := h
    rw [Pre_full] at hinv
    refine ⟨hinv.legit, ?_⟩
    intro c hc hd j x hj hx
    obtain ⟨ii, hii, rfl⟩ := List.mem_iff_getElem.1 hc
    exact hl ii _ hii (List.getElem?_eq_getElem hii) hd j x hj hx

/-- the result of `handleEntityMove`. -/
theorem handleEntityMove_result (cs0 : List (Change N)) (hnd : ∀ c ∈ cs0, c.children.Nodup) {res : List (Change N)}
    (h : handleEntityMove cs0 = some res) :
    ∃ st, MInv (sortChanges cs0) (InRec (sortChanges cs0)) st ∧
      res = st.items.map Item.toChange ++ st.extra := by
  have hh := outer_inv cs0 hnd (sortChanges cs0).length (Nat.le_refl _)
  unfold handleEntityMove at h
  simp only [List.length_map] at h
  cases hst : (List.range (sortChanges cs0).length).foldlM moveInner
      { items := (sortChanges cs0).map Item.ofChange, seen := [], extra := [] } with
  | none => rw [hst] at h; simp at h
  | some st =>
    rw [hst] at h hh
    simp only [Option.map_some, Option.some.injEq] at h
    refine ⟨st, ?_, h.symm⟩
    have := hh.1
    rw [Pre_full] at this; exact this

end Ddd
