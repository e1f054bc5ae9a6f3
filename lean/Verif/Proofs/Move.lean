import Verif.Proofs.Diff
/-! Helper lemmas about `handleEntityMove`. -/
set_option linter.unusedSectionVars false
set_option linter.unusedVariables false
namespace Ddd
variable {N : Type} [DecidableEq N]

/-! ### Item.remove -/

@[simp] theorem Item.remove_ctype (it : Item N) (e : N) : (it.remove e).ctype = it.ctype := by
  unfold Item.remove; dsimp only; split <;> rfl
@[simp] theorem Item.remove_parent (it : Item N) (e : N) : (it.remove e).parent = it.parent := by
  unfold Item.remove; dsimp only; split <;> rfl
@[simp] theorem Item.remove_key (it : Item N) (e : N) : (it.remove e).key = it.key := by
  unfold Item.remove; dsimp only; split <;> rfl

theorem Item.remove_children (it : Item N) (e : N) :
    (it.remove e).children = it.children.filter fun x => decide (x ≠ e) := by
  unfold Item.remove
  dsimp only
  split
  · next h => exact (List.Sublist.eq_of_length List.filter_sublist h).symm
  · unfold Item.children; simp

/-! ### the loop without buffers -/

/-- one visit never changes the type of an item. -/
theorem moveVisit_ctype {ii : Nat} {e : N} {st st' : MoveSt N} (h : moveVisit ii e st = some st') (i : Nat) :
    (st'.items[i]?).map Item.ctype = (st.items[i]?).map Item.ctype := by
  unfold moveVisit at h
  split at h
  · simp at h; subst h; rfl
  · split at h
    · split at h
      · simp at h; subst h
        simp only [List.getElem?_modify]
        cases st.items[i]? with
        | none => simp
        | some x =>
          simp only [Option.map_some]
          split <;> split <;> simp
      · simp at h
    · simp at h

/-- `e` is in a delete item `ii` and recorded in a new item. -/
def IsMove (st : MoveSt N) (ii : Nat) (e : N) : Prop :=
  ∃ pi, st.lookup e = some pi ∧ (st.items[pi]?).map Item.ctype = some .new ∧
    (st.items[ii]?).map Item.ctype = some .delete

theorem lookup_cons (st : MoveSt N) (e x : N) (ii : Nat) (items : List (Item N)) (extra : List (Change N)) :
    MoveSt.lookup { items := items, seen := (e, ii) :: st.seen, extra := extra } x =
      if x = e then some ii else st.lookup x := by
  unfold MoveSt.lookup
  simp only [List.find?_cons]
  by_cases h : x = e
  · subst h; simp
  · have : (e == x) = false := by simpa using fun h' => h h'.symm
    simp [this, h]

/-- a visit that succeeds either only records the entity or performs a move. -/
theorem moveVisit_cases {ii : Nat} {e : N} {st st' : MoveSt N} (h : moveVisit ii e st = some st') :
    (st.lookup e = none ∧ st' = { st with seen := (e, ii) :: st.seen }) ∨
    (∃ pi prev, st.lookup e = some pi ∧ st.items[pi]? = some prev ∧ prev.ctype = .new ∧
      (st.items[ii]?).map Item.ctype = some .delete ∧
      st' = { items := (st.items.modify ii fun it => it.remove e).modify pi fun it => it.remove e
              seen := (e, ii) :: st.seen
              extra := st.extra ++ [{ ctype := .dirty, parent := prev.parent, key := prev.key,
                                      children := [e] }] }) := by
  unfold moveVisit at h
  split at h
  · next hl => left; simp at h; exact ⟨hl, h.symm⟩
  · next pi hl =>
    right
    split at h
    · next prev item h1 h2 =>
      split at h
      · next hc =>
        simp at h
        exact ⟨pi, prev, hl, h1, hc.1, by simp [h2, hc.2], h.symm⟩
      · simp at h
    · simp at h

theorem moveVisit_lookup {ii : Nat} {e : N} {st st' : MoveSt N} (h : moveVisit ii e st = some st') (x : N) :
    st'.lookup x = if x = e then some ii else st.lookup x := by
  rcases moveVisit_cases h with ⟨_, rfl⟩ | ⟨_, _, _, _, _, _, rfl⟩ <;> exact lookup_cons st e x ii _ _

theorem moveVisit_seen_delete {ii : Nat} {e : N} {st : MoveSt N} (h1 : st.lookup e = some ii)
    (h2 : (st.items[ii]?).map Item.ctype = some .delete) : moveVisit ii e st = none := by
  unfold moveVisit
  rw [h1]
  cases hi : st.items[ii]? with
  | none => simp
  | some it =>
    simp [hi] at h2
    simp [h2, hi]

/-! ### the loop with buffers -/

/-- once two equal elements sit at the end of the buffer the loop ends in the error. -/
theorem inner_dup (ii : Nat) (z : N) (m : Nat) : ∀ (n j : Nat) (st : MoveSt N) (it : Item N),
    m = j + n → 2 ≤ n → st.items[ii]? = some it → it.ctype = .delete → it.buf.length = m → it.len + 1 ≤ m →
    it.buf[m-1]? = some z → it.buf[m-2]? = some z →
    (List.range' j n).foldlM (moveStep ii) st = none := by
  intro n
  induction n with
  | zero => intro j st it _ h; omega
  | succ n ih =>
    intro j st it hm hn hit hty hlen hl hz1 hz2
    rw [List.range'_succ, List.foldlM_cons]
    cases hs : moveStep ii st j with
    | none => rfl
    | some st' =>
      change (List.range' (j + 1) n).foldlM (moveStep ii) st' = none
      unfold moveStep at hs
      rw [hit] at hs
      simp only [Option.bind_some] at hs
      cases hb : it.buf[j]? with
      | none => simp [hb] at hs
      | some e =>
        rw [hb] at hs
        simp only at hs
        have hty' : (st'.items[ii]?).map Item.ctype = some .delete := by
          rw [moveVisit_ctype hs ii, hit]; simp [hty]
        -- the item afterwards
        have hit' : ∃ it', st'.items[ii]? = some it' ∧ it'.ctype = .delete ∧ it'.buf.length = m ∧ it'.len + 1 ≤ m ∧
            it'.buf[m-1]? = some z ∧ it'.buf[m-2]? = some z := by
          rcases moveVisit_cases hs with ⟨_, rfl⟩ | ⟨pi, prev, hlk, hp, hpt, _, rfl⟩
          · exact ⟨it, hit, hty, hlen, hl, hz1, hz2⟩
          · have hne : pi ≠ ii := by
              rintro rfl
              rw [hit] at hp; simp at hp; subst hp; rw [hty] at hpt; cases hpt
            refine ⟨it.remove e, ?_, by simp [hty], ?_⟩
            · simp only [List.getElem?_modify, hit, hne]; simp
            · unfold Item.remove
              dsimp only
              split
              · exact ⟨hlen, hl, hz1, hz2⟩
              · next hk =>
                have hkl : (it.children.filter fun x => decide (x ≠ e)).length < it.children.length :=
                  Nat.lt_of_le_of_ne (List.length_filter_le ..) hk
                have hcl : it.children.length ≤ it.len := by
                  unfold Item.children; rw [List.length_take]; omega
                refine ⟨?_, ?_, ?_, ?_⟩
                · simp only [List.length_append, List.length_drop]; omega
                · dsimp only; omega
                · rw [List.getElem?_append_right (by omega), List.getElem?_drop]
                  rw [show (List.filter (fun x => decide (x ≠ e)) it.children).length +
                    (m - 1 - (List.filter (fun x => decide (x ≠ e)) it.children).length) = m - 1 by omega]
                  exact hz1
                · rw [List.getElem?_append_right (by omega), List.getElem?_drop]
                  rw [show (List.filter (fun x => decide (x ≠ e)) it.children).length +
                    (m - 2 - (List.filter (fun x => decide (x ≠ e)) it.children).length) = m - 2 by omega]
                  exact hz2
        obtain ⟨it', hit', hty2, hlen', hl', hz1', hz2'⟩ := hit'
        by_cases h2 : 2 ≤ n
        · exact ih (j + 1) st' it' (by omega) h2 hit' hty2 hlen' hl' hz1' hz2'
        · have hn1 : n = 1 := by omega
          subst hn1
          have hj : j = m - 2 := by omega
          have hez : e = z := by
            rw [hj] at hb; rw [hb] at hz2; simpa using hz2
          subst hez
          have hj1 : j + 1 = m - 1 := by omega
          simp only [List.range'_one, List.foldlM_cons]
          have : moveStep ii st' (j + 1) = none := by
            unfold moveStep
            rw [hit']
            simp only [Option.bind_some, hj1, hz1']
            refine moveVisit_seen_delete ?_ (by simp [hit', hty2])
            rw [moveVisit_lookup hs]; simp
          rw [this]; rfl

/-- no entity that is moved stands before the last two positions: the loop visits the children in order. -/
theorem inner_late (ii : Nat) (xs : List N) (hnd : xs.Nodup) : ∀ (suf pre : List N) (st : MoveSt N) (it : Item N),
    xs = pre ++ suf → st.items[ii]? = some it → it.buf = xs → it.len = xs.length →
    (∀ j x, j + 2 < suf.length → suf[j]? = some x → ¬ IsMove st ii x) →
    (List.range' pre.length suf.length).foldlM (moveStep ii) st = suf.foldlM (fun st e => moveVisit ii e st) st := by
  intro suf
  induction suf with
  | nil => intro pre st it _ _ _ _ _; rfl
  | cons e suf ih =>
    intro pre st it hxs hit hbuf hlen hno
    rw [List.length_cons, List.range'_succ, List.foldlM_cons, List.foldlM_cons]
    have hread : it.buf[pre.length]? = some e := by rw [hbuf, hxs]; simp
    have hstep : moveStep ii st pre.length = moveVisit ii e st := by
      unfold moveStep; rw [hit]; simp [hread]
    rw [hstep]
    cases hv : moveVisit ii e st with
    | none => rfl
    | some st' =>
      change (List.range' (pre.length + 1) suf.length).foldlM (moveStep ii) st' =
        suf.foldlM (fun st e => moveVisit ii e st) st'
      have hesuf : e ∉ suf := by
        rw [hxs] at hnd
        have := (List.nodup_append.1 hnd).2.1
        exact (List.nodup_cons.1 this).1
      rcases moveVisit_cases hv with ⟨_, hst⟩ | ⟨pi, prev, hlk, hp, hpt, hdel, hst⟩
      · have hitems : st'.items = st.items := by rw [hst]
        have := ih (pre ++ [e]) st' it (by simp [hxs]) (by rw [hitems]; exact hit) hbuf hlen (by
          intro j x hj hx hm
          obtain ⟨pi, h1, h2, h3⟩ := hm
          rw [moveVisit_lookup hv] at h1
          have hxe : x ≠ e := fun h => hesuf (h ▸ List.mem_of_getElem? hx)
          simp only [hxe, if_false] at h1
          rw [hitems] at h2 h3
          exact hno (j + 1) x (by simp; omega) (by simpa using hx) ⟨pi, h1, h2, h3⟩)
        simpa using this
      · have hmv : IsMove st ii e := ⟨pi, hlk, by simp [hp, hpt], hdel⟩
        have hsl : ¬ (2 < (e :: suf).length) := fun h => hno 0 e h (by simp) hmv
        simp only [List.length_cons] at hsl
        match suf, hsl with
        | _ :: _ :: _, h => simp only [List.length_cons] at h; omega
        | [], _ => rfl
        | [z], _ =>
          simp only [List.length_cons, List.length_nil, Nat.zero_add, List.range'_one, List.foldlM_cons, List.foldlM_nil]
          have hne : pi ≠ ii := by
            rintro rfl
            rw [hp] at hdel; simp [hpt] at hdel
          have hit' : st'.items[ii]? = some (it.remove e) := by
            rw [hst]; simp only [List.getElem?_modify, hit, hne]; simp
          have hz : (it.remove e).buf[pre.length + 1]? = some z := by
            unfold Item.remove
            dsimp only
            split
            · rw [hbuf, hxs]; simp
            · next hk =>
              have hkl : (it.children.filter fun x => decide (x ≠ e)).length < it.children.length :=
                Nat.lt_of_le_of_ne (List.length_filter_le ..) hk
              have hcl : it.children.length ≤ it.len := by unfold Item.children; rw [List.length_take]; omega
              have : it.len = pre.length + 2 := by rw [hlen, hxs]; simp
              rw [List.getElem?_append_right (by omega), List.getElem?_drop]
              rw [show (List.filter (fun x => decide (x ≠ e)) it.children).length +
                (pre.length + 1 - (List.filter (fun x => decide (x ≠ e)) it.children).length) = pre.length + 1
                by omega]
              rw [hbuf, hxs]; simp
          have : moveStep ii st' (pre.length + 1) = moveVisit ii z st' := by
            unfold moveStep; rw [hit']; simp [hz]
          rw [this]

/-- a moved entity before the last two positions leads to the error. -/
theorem inner_early (ii : Nat) (xs : List N) (hnd : xs.Nodup) : ∀ (suf pre : List N) (st : MoveSt N) (it : Item N),
    xs = pre ++ suf → st.items[ii]? = some it → it.buf = xs → it.len = xs.length →
    (∃ j x, j + 2 < suf.length ∧ suf[j]? = some x ∧ IsMove st ii x) →
    (List.range' pre.length suf.length).foldlM (moveStep ii) st = none := by
  intro suf
  induction suf with
  | nil => rintro pre st it _ _ _ _ ⟨j, x, h, _⟩; simp at h
  | cons e suf ih =>
    rintro pre st it hxs hit hbuf hlen ⟨j, x, hj, hx, hm⟩
    rw [List.length_cons, List.range'_succ, List.foldlM_cons]
    have hread : it.buf[pre.length]? = some e := by rw [hbuf, hxs]; simp
    have hstep : moveStep ii st pre.length = moveVisit ii e st := by
      unfold moveStep; rw [hit]; simp [hread]
    rw [hstep]
    cases hv : moveVisit ii e st with
    | none => rfl
    | some st' =>
      change (List.range' (pre.length + 1) suf.length).foldlM (moveStep ii) st' = none
      have hnd' := hnd
      rw [hxs] at hnd'
      have hesuf : e ∉ suf := (List.nodup_cons.1 (List.nodup_append.1 hnd').2.1).1
      have hepre : e ∉ pre := fun h => (List.nodup_append.1 hnd').2.2 e h e (by simp) rfl
      rcases moveVisit_cases hv with ⟨hl0, hst⟩ | ⟨pi, prev, hlk, hp, hpt, hdel, hst⟩
      · have hitems : st'.items = st.items := by rw [hst]
        cases j with
        | zero =>
          simp at hx; subst hx
          obtain ⟨pi, h1, _⟩ := hm
          rw [hl0] at h1; cases h1
        | succ j =>
          have := ih (pre ++ [e]) st' it (by simp [hxs]) (by rw [hitems]; exact hit) hbuf hlen (by
            refine ⟨j, x, by simp at hj; omega, by simpa using hx, ?_⟩
            obtain ⟨pi, h1, h2, h3⟩ := hm
            refine ⟨pi, ?_, by rw [hitems]; exact h2, by rw [hitems]; exact h3⟩
            rw [moveVisit_lookup hv]
            have hxe : x ≠ e := fun h => hesuf (h ▸ List.mem_of_getElem? (by simpa using hx))
            simp only [hxe, if_false]; exact h1)
          simpa using this
      · have hne : pi ≠ ii := by
          rintro rfl
          rw [hp] at hdel; simp [hpt] at hdel
        have hity : it.ctype = .delete := by rw [hit] at hdel; simpa using hdel
        have hit' : st'.items[ii]? = some (it.remove e) := by
          rw [hst]; simp only [List.getElem?_modify, hit, hne]; simp
        have hsl : 2 ≤ suf.length := by simp at hj; omega
        have hch : it.children = pre ++ e :: suf := by
          unfold Item.children; rw [hlen, hbuf, hxs, List.take_length]
        have hkept : (it.children.filter fun x => decide (x ≠ e)) = pre ++ suf := by
          rw [hch, List.filter_append, List.filter_cons]
          simp only [ne_eq, not_true_eq_false, decide_false, Bool.false_eq_true, if_false]
          rw [List.filter_eq_self.2, List.filter_eq_self.2]
          · intro a ha; simp; rintro rfl; exact hesuf ha
          · intro a ha; simp; rintro rfl; exact hepre ha
        obtain ⟨z, hz⟩ : ∃ z, suf[suf.length - 1]? = some z :=
          ⟨suf[suf.length - 1], List.getElem?_eq_getElem (by omega)⟩
        have hxl : xs.length = pre.length + 1 + suf.length := by rw [hxs]; simp; omega
        have hrem : it.remove e = { it with buf := (pre ++ suf) ++ it.buf.drop (pre ++ suf).length,
                                            len := (pre ++ suf).length } := by
          unfold Item.remove
          dsimp only
          rw [hkept, if_neg]
          rw [hch]; simp
        refine inner_dup ii z xs.length suf.length (pre.length + 1) st' (it.remove e) hxl hsl hit'
          (by simp [hity]) ?_ ?_ ?_ ?_
        · rw [hrem]; simp [hbuf, hxl]; omega
        · rw [hrem]; simp only [List.length_append, hxl]; omega
        · rw [hrem]; dsimp only
          rw [List.getElem?_append_right (by simp; omega), List.getElem?_drop, hbuf, hxs]
          rw [List.getElem?_append_right (by simp only [List.length_append]; omega)]
          rw [show (pre ++ suf).length + ((pre ++ e :: suf).length - 1 - (pre ++ suf).length) - pre.length
            = (suf.length - 1) + 1 by simp; omega]
          rw [List.getElem?_cons_succ]; exact hz
        · rw [hrem]; dsimp only
          rw [List.getElem?_append_left (by simp; omega)]
          rw [List.getElem?_append_right (by omega)]
          rw [show xs.length - 2 - pre.length = suf.length - 1 by omega]; exact hz

/-- the inner loop of `handleEntityMove`: either an entity is moved too early in its group (error), or the
children are visited in order. -/
theorem moveInner_eq (st : MoveSt N) (ii : Nat) (it : Item N) (hit : st.items[ii]? = some it)
    (hlen : it.len = it.buf.length) (hnd : it.buf.Nodup) :
    ((∃ j x, j + 2 < it.buf.length ∧ it.buf[j]? = some x ∧ IsMove st ii x) ∧ moveInner st ii = none) ∨
    ((∀ j x, j + 2 < it.buf.length → it.buf[j]? = some x → ¬ IsMove st ii x) ∧
      moveInner st ii = it.buf.foldlM (fun st e => moveVisit ii e st) st) := by
  unfold moveInner
  rw [hit]
  simp only [List.range_eq_range', hlen]
  by_cases h : ∃ j x, j + 2 < it.buf.length ∧ it.buf[j]? = some x ∧ IsMove st ii x
  · left
    refine ⟨h, ?_⟩
    exact inner_early ii it.buf hnd it.buf [] st it rfl hit rfl hlen h
  · right
    have h' : ∀ j x, j + 2 < it.buf.length → it.buf[j]? = some x → ¬ IsMove st ii x :=
      fun j x h1 h2 h3 => h ⟨j, x, h1, h2, h3⟩
    refine ⟨h', ?_⟩
    exact inner_late ii it.buf hnd it.buf [] st it rfl hit rfl hlen h'

end Ddd
