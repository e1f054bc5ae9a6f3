import Verif.Props.Mirror
set_option linter.unusedVariables false
set_option linter.unusedSimpArgs false
/-!
# C129: parents are written before their children
-/
namespace Ddd
open Spec

section lists
variable {A B : Type}

theorem pair_append {l1 l2 : List A} {a b : A} (ha : a ∈ l1) (hb : b ∈ l2) : [a, b].Sublist (l1 ++ l2) :=
  List.Sublist.append (List.singleton_sublist.2 ha) (List.singleton_sublist.2 hb)

theorem pair_split {l : List A} {a b : A} (h : [a, b].Sublist l) : ∃ l1 l2, l = l1 ++ l2 ∧ a ∈ l1 ∧ b ∈ l2 := by
  obtain ⟨l1, l2, rfl, ha, hb⟩ := List.cons_sublist_iff.1 h
  exact ⟨l1, l2, rfl, ha, List.singleton_sublist.1 hb⟩

theorem sublist_flatMap_of_mem {l : List A} {f : A → List B} {a : A} (h : a ∈ l) : (f a).Sublist (l.flatMap f) := by
  obtain ⟨s, t, rfl⟩ := List.append_of_mem h
  rw [List.flatMap_append, List.flatMap_cons]
  exact (List.sublist_append_left _ _).trans (List.sublist_append_right _ _)

/-- if every job occurs once, the answers follow the order of the jobs -/
theorem pair_zip [DecidableEq A] {Z : List (A × B)} {a b : A} {x y : B} (h : [a, b].Sublist (Z.map Prod.fst)) (ha : (Z.map Prod.fst).count a ≤ 1) (hb : (Z.map Prod.fst).count b ≤ 1)
    (hx : (a, x) ∈ Z) (hy : (b, y) ∈ Z) : [(a, x), (b, y)].Sublist Z := by
  obtain ⟨l1, l2, hl, ha1, hb2⟩ := pair_split h
  obtain ⟨Z1, Z2, rfl, rfl, rfl⟩ := List.map_eq_append_iff.1 hl
  rw [List.map_append, List.count_append] at ha hb
  have p1 := List.count_pos_iff.2 ha1
  have p2 := List.count_pos_iff.2 hb2
  refine pair_append ?_ ?_
  · rcases List.mem_append.1 hx with h | h
    · exact h
    · have : 0 < (Z2.map Prod.fst).count a := List.count_pos_iff.2 (List.mem_map.2 ⟨_, h, rfl⟩)
      omega
  · rcases List.mem_append.1 hy with h | h
    · have : 0 < (Z1.map Prod.fst).count b := List.count_pos_iff.2 (List.mem_map.2 ⟨_, h, rfl⟩)
      omega
    · exact h

theorem mem_firsts {l : List Nat} {a : Nat} : a ∈ firsts l ↔ a ∈ l := by
  induction l with
  | nil => simp [firsts]
  | cons b l ih =>
    simp only [firsts, List.mem_cons, List.mem_filter, ih, decide_eq_true_eq]
    by_cases h : a = b <;> simp [h]

/-- `firsts` lists `a` before `b` if `a` occurs before the first `b` -/
theorem firsts_order {l1 l2 : List Nat} {a b : Nat} (ha : a ∈ l1) (hb : b ∉ l1) : [a, b].Sublist (firsts (l1 ++ b :: l2)) := by
  induction l1 with
  | nil => simp at ha
  | cons c l1 ih =>
    simp only [List.mem_cons, not_or] at ha hb
    simp only [List.cons_append, firsts]
    by_cases hac : a = c
    · subst hac
      refine List.Sublist.cons_cons _ (List.singleton_sublist.2 ?_)
      rw [List.mem_filter, mem_firsts]
      exact ⟨by simp, by simpa using hb.1⟩
    · have h1 := ih (ha.resolve_left hac) hb.2
      have h2 := h1.filter fun x => decide (x ≠ c)
      have h3 : [a, b].filter (fun x => decide (x ≠ c)) = [a, b] := by simp [hac, hb.1]
      rw [h3] at h2
      exact h2.trans (List.sublist_cons_self _ _)

theorem no_both {l : List A} {a b : A} (hn : l.Nodup) (h1 : [a, b].Sublist l) (h2 : [b, a].Sublist l) : False := by
  obtain ⟨l1, l2, rfl, ha, hb⟩ := pair_split h1
  obtain ⟨k1, k2, he, hb', ha'⟩ := pair_split h2
  have hd := (List.nodup_append.1 hn).2.2
  have hd' := (List.nodup_append.1 (he ▸ hn)).2.2
  rcases List.append_eq_append_iff.1 he with ⟨v, rfl, rfl⟩ | ⟨v, rfl, rfl⟩
  · exact hd' a (List.mem_append_left _ ha) a ha' rfl
  · exact hd b (List.mem_append_left _ hb') b hb rfl

theorem firsts_pair {T1 T2 : List Nat} {a b : Nat} (ha : a ∈ T1) (hb : b ∉ T1) (hb2 : b ∈ T1 ++ T2) : [a, b].Sublist (firsts (T1 ++ T2)) := by
  obtain ⟨U, V, rfl, hU⟩ := List.eq_append_cons_of_mem ((List.mem_append.1 hb2).resolve_left hb)
  rw [← List.append_assoc]
  exact firsts_order (List.mem_append_left _ ha) fun h => (List.mem_append.1 h).elim hb hU

theorem firsts_split {T : List Nat} {a b : Nat} (hab : a ≠ b) (h : [a, b].Sublist (firsts T)) : ∃ T1 T2, T = T1 ++ T2 ∧ a ∈ T1 ∧ b ∉ T1 := by
  have ha : a ∈ T := mem_firsts.1 (h.subset (by simp))
  obtain ⟨U, V, rfl, hU⟩ := List.eq_append_cons_of_mem ha
  by_cases hb : b ∈ U
  · exact (no_both (firsts_nodup _) h (firsts_pair (T2 := a :: V) hb hU (by simp))).elim
  · exact ⟨U ++ [a], V, by simp, by simp, by simp [hb, Ne.symm hab]⟩
end lists

/-! ## Order of the changes -/

/-- where `p` is new, the changes below `p` come after it -/
theorem diff_below {N : Type} [DecidableEq N] (g : Graph N) (d : N → Bool) (pool : KidPool N) {ch x : Change N} {p : N} : ∀ e : N, ch ∈ entityDiff g d pool e → ch.ctype = .new → p ∈ ch.children →
    x ∈ entityDiff g d pool p → [ch, x].Sublist (entityDiff g d pool e) := by
  intro e
  induction hn : g.height e using Nat.strong_induction_on generalizing e with
  | _ n ih =>
    intro hch ht hp hx
    rw [entityDiff_eq] at hch ⊢
    obtain ⟨grp, hg, hch⟩ := List.mem_flatMap.1 hch
    refine List.Sublist.trans ?_ (sublist_flatMap_of_mem hg)
    have hg' := (mem_sortedKids g e grp).1 hg
    simp only [List.mem_append] at hch
    rcases hch with (((h | h) | h) | h) | h
    · have hc := (mem_mkChange.1 h).2
      refine List.Sublist.trans ?_ (List.sublist_append_left _ _)
      refine List.Sublist.trans ?_ (List.sublist_append_left _ _)
      refine List.Sublist.trans ?_ (List.sublist_append_left _ _)
      refine pair_append h (List.mem_flatMap.2 ⟨p, ?_, hx⟩)
      rw [hc] at hp; exact hp
    · obtain ⟨c, hc, h⟩ := List.mem_flatMap.1 h
      have hlt := g.wf hg' (mem_createdOf.1 hc).1
      have := ih _ (by omega) c rfl h ht hp hx
      refine List.Sublist.trans ?_ (List.sublist_append_left _ _)
      refine List.Sublist.trans ?_ (List.sublist_append_left _ _)
      refine List.Sublist.trans ?_ (List.sublist_append_left _ _)
      exact (this.trans (sublist_flatMap_of_mem hc)).trans (List.sublist_append_right _ _)
    · rw [(mem_mkChange.1 h).2] at ht; cases ht
    · obtain ⟨c, hc, h⟩ := List.mem_flatMap.1 h
      have hlt := g.wf hg' (mem_remainOf.1 hc).1
      have := ih _ (by omega) c rfl h ht hp hx
      refine List.Sublist.trans ?_ (List.sublist_append_left _ _)
      exact (this.trans (sublist_flatMap_of_mem hc)).trans (List.sublist_append_right _ _)
    · rw [(mem_mkChange.1 h).2] at ht; cases ht

theorem sort_pair {N : Type} {cs : List (Change N)} {a b : Change N} (h : [a, b].Sublist cs) (hr : a.ctype.rank ≤ b.ctype.rank) : [a, b].Sublist (sortChanges cs) := by
  unfold sortChanges
  exact List.sublist_insertionSort (by simpa using hr) h

/-- two new records keep their order -/
theorem move_pair {N : Type} [DecidableEq N] (cs : List (Change N)) (hnd : ∀ c ∈ cs, c.children.Nodup) {res : List (Change N)} (h : handleEntityMove cs = some res) {a b : Change N}
    (hs : [a, b].Sublist (sortChanges cs)) {n p : N} (ma : p ∈ a.children) (mb : n ∈ b.children) (np : ¬ (Lists cs .new p ∧ Lists cs .delete p)) (nn : ¬ (Lists cs .new n ∧ Lists cs .delete n)) :
    ∃ r1 r2, res = r1 ++ r2 ∧ (∃ ch ∈ r1, ch.ctype = a.ctype ∧ ch.parent = a.parent ∧ p ∈ ch.children) ∧ (∃ ch ∈ r2, ch.ctype = b.ctype ∧ ch.parent = b.parent ∧ n ∈ ch.children) := by
  obtain ⟨st, hinv, rfl⟩ := handleEntityMove_result _ hnd h
  have hl : Legit (sortChanges cs) := hinv.legit
  have hL : ∀ t e, Lists (sortChanges cs) t e ↔ Lists cs t e := by
    intro t e; simp [Lists, mem_sortChanges]
  have tw : ∀ e, ¬ (Lists cs .new e ∧ Lists cs .delete e) → ¬ Twice (InRec (sortChanges cs)) e := by
    intro e he ht
    have := (twice_iff hl e).1 ht
    rw [hL, hL] at this
    exact he this
  obtain ⟨l1, l2, hsplit, ha1, hb2⟩ := pair_split hs
  obtain ⟨i, hi, hia⟩ := List.mem_iff_getElem.1 ha1
  obtain ⟨j, hj, hjb⟩ := List.mem_iff_getElem.1 hb2
  have ei : (sortChanges cs)[i]? = some a := by
    rw [hsplit, List.getElem?_append_left hi, List.getElem?_eq_getElem hi, hia]
  have ej : (sortChanges cs)[l1.length + j]? = some b := by
    rw [hsplit, List.getElem?_append_right (by omega)]
    simp [hj, hjb]
  obtain ⟨ia, h1, h2, h3, -, h5, -⟩ := hinv.items _ _ ei
  obtain ⟨ib, k1, k2, k3, -, k5, -⟩ := hinv.items _ _ ej
  refine ⟨(st.items.take l1.length).map Item.toChange, (st.items.drop l1.length).map Item.toChange ++ st.extra, ?_, ?_, ?_⟩
  · rw [← List.append_assoc, ← List.map_append, List.take_append_drop]
  · refine ⟨ia.toChange, List.mem_map.2 ⟨ia, ?_, rfl⟩, h2, h3, (h5 p).2 ⟨ma, fun h => tw p np h.1⟩⟩
    refine List.mem_iff_getElem?.2 ⟨i, ?_⟩
    rw [List.getElem?_take, if_pos hi, h1]
  · refine ⟨ib.toChange, List.mem_append_left _ (List.mem_map.2 ⟨ib, ?_, rfl⟩), k2, k3, (k5 n).2 ⟨mb, fun h => tw n nn h.1⟩⟩
    refine List.mem_iff_getElem?.2 ⟨j, ?_⟩
    rw [List.getElem?_drop, k1]

/-- if the save inserts `p` (below `q`) and `n` below `p`, it lists `p` first -/
theorem move_order {N : Type} [DecidableEq N] (g : Graph N) (d : N → Bool) (pool : KidPool N) (hk : pool.Keys) (root : N) {res : List (Change N)}
    (h : handleEntityMove (entityDiff g d pool root) = some res) {n p q : N}
    (hp : ∃ ch ∈ res, ch.ctype = .new ∧ ch.parent = q ∧ p ∈ ch.children) (hn : ∃ ch ∈ res, ch.ctype = .new ∧ ch.parent = p ∧ n ∈ ch.children) :
    ∃ r1 r2, res = r1 ++ r2 ∧ (∃ ch ∈ r1, ch.ctype = .new ∧ ch.parent = q ∧ p ∈ ch.children) ∧ (∃ ch ∈ r2, ch.ctype = .new ∧ ch.parent = p ∧ n ∈ ch.children) := by
  have hnd : ∀ c ∈ entityDiff g d pool root, c.children.Nodup := fun ch hch => (entityDiff_children g d pool hk root ch hch).2
  obtain ⟨cp, hcp, tp, qp, mp⟩ := hp
  obtain ⟨cn, hcn, tn, qn, mn⟩ := hn
  have fp := (handleEntityMove_mem _ hnd h .new q cp.key p).1 ⟨cp, hcp, tp, qp, rfl, mp⟩
  have fn := (handleEntityMove_mem _ hnd h .new p cn.key n).1 ⟨cn, hcn, tn, qn, rfl, mn⟩
  simp only [reduceCtorEq, false_and, or_false] at fp fn
  obtain ⟨⟨a, ha, ta, qa, -, ma⟩, np⟩ := fp
  obtain ⟨hb, nn⟩ := fn
  have hb' := (entityDiff_char g d pool hk root .new p cn.key n).1 hb
  obtain ⟨b, hb, tb, qb, -, mb⟩ := (entityDiff_char g d pool hk p .new p cn.key n).2 ⟨.root, hb'.2⟩
  have hs := sort_pair (diff_below g d pool root ha ta ma hb) (by rw [ta, tb])
  have := move_pair _ hnd h hs ma mb np nn
  rwa [ta, qa, tb, qb] at this

/-! ## Order of the fields -/

theorem diff_reach {N : Type} [DecidableEq N] (g : Graph N) (d : N → Bool) (pool : KidPool N) {root p : N} (h : Reach g.kids root p) : (entityDiff g d pool p).Sublist (entityDiff g d pool root) := by
  induction h with
  | root => exact List.Sublist.refl _
  | @step p c _ hc ih =>
    refine List.Sublist.trans ?_ ih
    obtain ⟨k, cs, hg, hm⟩ := hc
    rw [entityDiff_eq g d pool p]
    refine List.Sublist.trans ?_ (sublist_flatMap_of_mem ((mem_sortedKids g p (k, cs)).2 hg))
    by_cases ho : c ∈ snapKids pool p k
    · have hr := mem_remainOf.2 ⟨hm, ho⟩
      refine List.Sublist.trans ?_ (List.sublist_append_left _ _)
      exact (sublist_flatMap_of_mem (f := fun c => entityDiff g d pool c) hr).trans (List.sublist_append_right _ _)
    · have hr := mem_createdOf.2 ⟨hm, ho⟩
      refine List.Sublist.trans ?_ (List.sublist_append_left _ _)
      refine List.Sublist.trans ?_ (List.sublist_append_left _ _)
      refine List.Sublist.trans ?_ (List.sublist_append_left _ _)
      exact (sublist_flatMap_of_mem (f := fun c => entityDiff g d pool c) hr).trans (List.sublist_append_right _ _)

theorem sortedKids_pair {N : Type} [DecidableEq N] (g : Graph N) {p : N} {x y : Key × List N} (hx : x ∈ g.kids p) (hy : y ∈ g.kids p) (hlt : x.1 < y.1) : [x, y].Sublist (sortedKids g p) := by
  have hs : (sortedKids g p).Pairwise fun a b => a.1 ≤ b.1 := List.pairwise_insertionSort (r := fun a b : Key × List N => a.1 ≤ b.1) _
  have hx' := (mem_sortedKids g p x).2 hx
  have hy' := (mem_sortedKids g p y).2 hy
  generalize sortedKids g p = l at *
  obtain ⟨l1, l2, rfl⟩ := List.append_of_mem hx'
  refine (List.Sublist.cons_cons x (List.singleton_sublist.2 ?_)).trans (List.sublist_append_right _ _)
  rcases List.mem_append.1 hy' with h | h
  · have := (List.pairwise_append.1 hs).2.2 y h x (by simp)
    exact absurd this (Nat.not_le.2 hlt)
  · rcases List.mem_cons.1 h with rfl | h
    · exact absurd hlt (Nat.lt_irrefl _)
    · exact h

/-- of two entities inserted below `p`, in different fields, the one of the lower field is listed first -/
theorem field_order {N : Type} [DecidableEq N] (g : Graph N) (d : N → Bool) (pool : KidPool N) (hk : pool.Keys) (root : N) {res : List (Change N)}
    (h : handleEntityMove (entityDiff g d pool root) = some res) {n n' p : N} {k k' : Key} (hlt : k < k')
    (hn : ∃ ch ∈ res, ch.ctype = .new ∧ ch.parent = p ∧ n ∈ ch.children) (hn' : ∃ ch ∈ res, ch.ctype = .new ∧ ch.parent = p ∧ n' ∈ ch.children)
    (ha : Added g.kids pool root p k n) (ha' : Added g.kids pool root p k' n') :
    ∃ r1 r2, res = r1 ++ r2 ∧ (∃ ch ∈ r1, ch.ctype = .new ∧ ch.parent = p ∧ n ∈ ch.children) ∧ (∃ ch ∈ r2, ch.ctype = .new ∧ ch.parent = p ∧ n' ∈ ch.children) := by
  have hnd : ∀ c ∈ entityDiff g d pool root, c.children.Nodup := fun ch hch => (entityDiff_children g d pool hk root ch hch).2
  obtain ⟨cp, hcp, tp, qp, mp⟩ := hn
  obtain ⟨cn, hcn, tn, qn, mn⟩ := hn'
  have fp := (handleEntityMove_mem _ hnd h .new p cp.key n).1 ⟨cp, hcp, tp, qp, rfl, mp⟩
  have fn := (handleEntityMove_mem _ hnd h .new p cn.key n').1 ⟨cn, hcn, tn, qn, rfl, mn⟩
  simp only [reduceCtorEq, false_and, or_false] at fp fn
  obtain ⟨hr, ⟨cs, hg, hm⟩, ho⟩ := ha
  obtain ⟨-, ⟨cs', hg', hm'⟩, ho'⟩ := ha'
  have c1 : n ∈ createdOf cs (snapKids pool p k) := mem_createdOf.2 ⟨hm, fun h => ho ((mem_snapKids hk).1 h)⟩
  have c2 : n' ∈ createdOf cs' (snapKids pool p k') := mem_createdOf.2 ⟨hm', fun h => ho' ((mem_snapKids hk).1 h)⟩
  have hpair : [(⟨.new, p, k, createdOf cs (snapKids pool p k)⟩ : Change N), ⟨.new, p, k', createdOf cs' (snapKids pool p k')⟩].Sublist (entityDiff g d pool root) := by
    refine List.Sublist.trans ?_ (diff_reach g d pool hr)
    rw [entityDiff_eq]
    obtain ⟨l1, l2, hl, h1, h2⟩ := pair_split (sortedKids_pair g hg hg' hlt)
    rw [hl, List.flatMap_append]
    refine pair_append (List.mem_flatMap.2 ⟨_, h1, ?_⟩) (List.mem_flatMap.2 ⟨_, h2, ?_⟩)
    · simp only [List.mem_append]
      exact .inl (.inl (.inl (.inl (mem_mkChange.2 ⟨List.ne_nil_of_mem c1, rfl⟩))))
    · simp only [List.mem_append]
      exact .inl (.inl (.inl (.inl (mem_mkChange.2 ⟨List.ne_nil_of_mem c2, rfl⟩))))
  exact move_pair _ hnd h (sort_pair hpair (le_refl _)) c1 c2 fp.2 fn.2

variable (env : Env) (opts : Opts)

theorem jobs_append (a b : List (Change Node)) : jobs (a ++ b) = jobs a ++ jobs b := by simp [jobs]

theorem new_iff_insert {t : ChangeType} : t.op = .insert ↔ t = .new := by cases t <;> simp [ChangeType.op]

theorem insert_job_iff {cs : List (Change Node)} {n p : Node} : (⟨n, p, .insert⟩ : Job) ∈ jobs cs ↔ ∃ ch ∈ cs, ch.ctype = .new ∧ ch.parent = p ∧ n ∈ ch.children := by
  unfold jobs
  simp only [List.mem_flatMap, List.mem_map, Job.mk.injEq]
  constructor
  · rintro ⟨ch, h, x, hx, rfl, hp, ho⟩; exact ⟨ch, h, new_iff_insert.1 ho, hp, hx⟩
  · rintro ⟨ch, h, ht, hp, hn⟩; exact ⟨ch, h, n, hn, rfl, hp, new_iff_insert.2 ht⟩

/-- the jobs appended by recursive delete are deletes -/
theorem recDelete_jobs (g : Graph Node) (o1 o2 : MapOrder Node) (cs : List (Change Node)) :
    ∃ l, recursiveDelete g o1 o2 cs = cs ++ l ∧ ∀ j ∈ jobs l, j.op = .delete := by
  refine ⟨_, rfl, ?_⟩
  intro j hj
  unfold jobs at hj
  simp only [List.mem_flatMap, List.mem_map] at hj
  obtain ⟨x, ⟨_, _, _, _, _, _, _, _, rfl⟩, _, _, rfl⟩ := hj
  rfl

theorem changes_order {s : St} {cs : List (Change Node)} (h : entityChanges env opts s = some cs) {n p q : Node}
    (hp : (⟨p, q, .insert⟩ : Job) ∈ jobs cs) (hn : (⟨n, p, .insert⟩ : Job) ∈ jobs cs) : [(⟨p, q, .insert⟩ : Job), ⟨n, p, .insert⟩].Sublist (jobs cs) := by
  obtain ⟨res, hm, hcs⟩ := entityChanges_some env opts h
  have key : ∃ l, cs = res ++ l ∧ ∀ j ∈ jobs l, j.op = .delete := by
    rw [hcs]
    split
    · exact recDelete_jobs _ _ _ _
    · exact ⟨[], by simp, by simp [jobs]⟩
  obtain ⟨l, rfl, hl⟩ := key
  rw [jobs_append] at hp hn ⊢
  have fp : (⟨p, q, .insert⟩ : Job) ∈ jobs res := by
    rcases List.mem_append.1 hp with h | h
    · exact h
    · exact absurd (hl _ h) (by simp)
  have fn : (⟨n, p, .insert⟩ : Job) ∈ jobs res := by
    rcases List.mem_append.1 hn with h | h
    · exact h
    · exact absurd (hl _ h) (by simp)
  obtain ⟨r1, r2, rfl, h1, h2⟩ := move_order _ _ _ s.kidPool_keys none hm (insert_job_iff.1 fp) (insert_job_iff.1 fn)
  rw [jobs_append]
  exact (pair_append (insert_job_iff.2 h1) (insert_job_iff.2 h2)).trans (List.sublist_append_left _ _)

theorem changes_field_order {s : St} {cs : List (Change Node)} (h : entityChanges env opts s = some cs) {n n' p : Node} {k k' : Key} (hlt : k < k')
    (ha : Added s.now s.kidPool none p k n) (ha' : Added s.now s.kidPool none p k' n')
    (hp : (⟨n, p, .insert⟩ : Job) ∈ jobs cs) (hn : (⟨n', p, .insert⟩ : Job) ∈ jobs cs) : [(⟨n, p, .insert⟩ : Job), ⟨n', p, .insert⟩].Sublist (jobs cs) := by
  obtain ⟨res, hm, hcs⟩ := entityChanges_some env opts h
  have key : ∃ l, cs = res ++ l ∧ ∀ j ∈ jobs l, j.op = .delete := by
    rw [hcs]
    split
    · exact recDelete_jobs _ _ _ _
    · exact ⟨[], by simp, by simp [jobs]⟩
  obtain ⟨l, rfl, hl⟩ := key
  rw [jobs_append] at hp hn ⊢
  have fp : (⟨n, p, .insert⟩ : Job) ∈ jobs res := by
    rcases List.mem_append.1 hp with h | h
    · exact h
    · exact absurd (hl _ h) (by simp)
  have fn : (⟨n', p, .insert⟩ : Job) ∈ jobs res := by
    rcases List.mem_append.1 hn with h | h
    · exact h
    · exact absurd (hl _ h) (by simp)
  obtain ⟨r1, r2, rfl, h1, h2⟩ := field_order _ _ _ s.kidPool_keys none hm hlt (insert_job_iff.1 fp) (insert_job_iff.1 fn) ha ha'
  rw [jobs_append]
  exact (pair_append (insert_job_iff.2 h1) (insert_job_iff.2 h2)).trans (List.sublist_append_left _ _)

/-- inserts are listed before everything else -/
theorem jobs_insert_first {s : St} {cs : List (Change Node)} (h : entityChanges env opts s = some cs) : (jobs cs).Pairwise fun a b => b.op = .insert → a.op = .insert := by
  obtain ⟨res, hm, hcs⟩ := entityChanges_some env opts h
  have key : ∃ l, cs = res ++ l ∧ ∀ j ∈ jobs l, j.op = .delete := by
    rw [hcs]
    split
    · exact recDelete_jobs _ _ _ _
    · exact ⟨[], by simp, by simp [jobs]⟩
  obtain ⟨l, rfl, hl⟩ := key
  have hl' : ∀ j ∈ jobs l, j.op ≠ .insert := fun j hj => by rw [hl j hj]; simp
  rw [jobs_append]
  -- the records of `res`
  have hrec : res.Pairwise fun a b => b.ctype = .new → a.ctype = .new := by
    obtain ⟨st, hinv, rfl⟩ := handleEntityMove_result _ (diff_nodup s) hm
    refine List.pairwise_append.2 ⟨?_, ?_, ?_⟩
    · refine List.pairwise_iff_getElem.2 fun i j hi hj hij hb => ?_
      simp only [List.length_map] at hi hj
      have hi' := hi
      have hj' := hj
      rw [hinv.len] at hi' hj'
      obtain ⟨ia, h1, h2, -⟩ := hinv.items i _ (List.getElem?_eq_getElem hi')
      obtain ⟨ib, k1, k2, -⟩ := hinv.items j _ (List.getElem?_eq_getElem hj')
      rw [List.getElem?_eq_getElem hi, Option.some.injEq] at h1
      rw [List.getElem?_eq_getElem hj, Option.some.injEq] at k1
      have hr := sortChanges_rank _ hij (List.getElem?_eq_getElem hi') (List.getElem?_eq_getElem hj')
      simp only [List.getElem_map] at hb ⊢
      have hb' : st.items[j].ctype = .new := hb
      show st.items[i].ctype = .new
      rw [k1] at hb'
      rw [h1, h2]
      rw [← k2, hb'] at hr
      revert hr
      cases (sortChanges (entityDiff s.graph s.heap.dirtyNode s.kidPool none))[i].ctype <;> simp [ChangeType.rank]
    · refine List.Pairwise.imp_of_mem (R := fun _ _ => True) ?_ (List.pairwise_of_forall fun _ _ => trivial)
      intro a b ha hb _ hn
      obtain ⟨e, i, c, rfl, -⟩ := hinv.extra1 b hb
      cases hn
    · intro a ha b hb hn
      obtain ⟨e, i, c, rfl, -⟩ := hinv.extra1 b hb
      cases hn
  refine List.pairwise_append.2 ⟨?_, ?_, ?_⟩
  · unfold jobs
    refine List.pairwise_flatMap.2 ⟨?_, ?_⟩
    · intro c hc
      refine List.pairwise_map.2 (List.pairwise_of_forall fun a b h => h)
    · refine hrec.imp fun {a b} hab x hx y hy => ?_
      obtain ⟨_, _, rfl⟩ := List.mem_map.1 hx
      obtain ⟨_, _, rfl⟩ := List.mem_map.1 hy
      intro h; exact new_iff_insert.2 (hab (new_iff_insert.1 h))
  · refine List.Pairwise.imp_of_mem (R := fun _ _ => True) ?_ (List.pairwise_of_forall fun _ _ => trivial)
    intro a b ha hb _ hn
    exact absurd hn (hl' b hb)
  · intro a ha b hb hn
    exact absurd hn (hl' b hb)

/-! ## Specification -/

/-- The row of model `m` is handed to the executor before the row of model `m'`, both as inserts: earlier in the same batch, or in an earlier batch. -/
def InsertedBefore (m m' : Model) (w : List Action) : Prop :=
  (∃ a ∈ w, a.op = .insert ∧ [m, m'].Sublist a.models) ∨
  ∃ a b, [a, b].Sublist w ∧ a.op = .insert ∧ b.op = .insert ∧ m ∈ a.models ∧ m' ∈ b.models

/-- `rs`: the answers of the converter. Entity `n` is inserted below `p` as a row with model `m`. -/
def Inserts (js : List Job) (rs : List (Option Model)) (n p : Node) (m : Model) : Prop := ((⟨n, p, .insert⟩ : Job), some m) ∈ js.zip rs

/-! ## The rows -/

/-- the jobs with their models, without those of unregistered types -/
def insRows (Z : List (Job × Option Model)) : List (Job × Model) := Z.filterMap fun x => x.2.map fun m => (x.1, m)

theorem mem_insRows {Z : List (Job × Option Model)} {j : Job} {m : Model} : (j, m) ∈ insRows Z ↔ (j, some m) ∈ Z := by
  unfold insRows
  simp only [List.mem_filterMap, Option.map_eq_some_iff, Prod.mk.injEq]
  constructor
  · rintro ⟨⟨x, y⟩, h, m', hm, h1, h2⟩
    subst h1; subst h2
    dsimp only at hm ⊢
    rw [← hm]; exact h
  · intro h; exact ⟨_, h, m, rfl, rfl, rfl⟩

theorem insRows_pair {Z : List (Job × Option Model)} {j j' : Job} {m m' : Model} (h : [(j, some m), (j', some m')].Sublist Z) : [(j, m), (j', m')].Sublist (insRows Z) := by
  have := h.filterMap (f := fun x : Job × Option Model => x.2.map fun m => (x.1, m))
  exact this

theorem entries_rows (snap : Node → Option Snap) (js : List Job) (rs : List (Option Model)) :
    entries snap js rs = (insRows (js.zip rs)).map fun x => ⟨x.1.op, x.2, if x.1.op = .update then [(snap x.1.node).bind Snap.po] else []⟩ := by
  unfold entries insRows
  rw [List.map_filterMap]
  refine List.filterMap_congr fun x _ => ?_
  unfold entryOf
  cases x.2 <;> rfl

theorem batches_insert (es : List Entry) : ∃ l, batches es =
    ((firsts (es.map fun e => e.model.typ)).filter fun t => es.any fun e => decide (e.op = .insert ∧ e.model.typ = t)).map (batch es .insert) ++ l := by
  unfold batches
  rw [List.flatMap_cons]
  exact ⟨_, rfl⟩

theorem save_answers {s s' : St} (h : persist env opts s = (.ok (), s')) (hd : opts.dryRun = false) :
    ∃ (cs : List (Change Node)) (t : Trace) (rs : List (Option Model)) (h2 : Heap), entityChanges env opts s = some cs ∧ s'.trace = s.trace ++ t ∧ asked t = jobs cs ∧
      List.Forall₂ (Answered env h2) (asked t) rs ∧ written t = batches (entries s.snap (jobs cs) rs) := by
  obtain ⟨cs, h1, h2, k, rs, hist, hc, ha, ht, hsn, _, _, _, _, hact, _⟩ := persist_effect env opts h
  obtain ⟨cs', t, hc', ht', hask⟩ := save_calls env opts h
  rw [hc] at hc'
  simp only [Option.some.injEq] at hc'
  subst hc'
  refine ⟨cs, t, rs, h2, hc, ht', hask, by rw [hask]; exact ha, ?_⟩
  have : t = hookCalls env true cs ++ List.replicate k (.newID .ok) ++ convCalls (jobs cs) rs ++
      ((batches (entries s.snap (jobs cs) rs)).map fun a => .exec a .ok) ++ hookCalls env false cs := by
    rw [ht'] at ht
    simp only [hd, Bool.false_eq_true, if_false, List.append_assoc, List.append_cancel_left_eq] at ht
    simp only [List.append_assoc]; exact ht
  rw [this]
  simp only [written_append, written_hookCalls, written_convCalls, written_exec]
  rw [written_none (t := List.replicate k (.newID .ok))]
  · simp
  · intro a st h; have := List.eq_of_mem_replicate h; cases this

/-! ## Theorems -/

/-- **C129** A save asks for the model of an inserted parent before it asks for those of its inserted children. -/
theorem C129_parent_asked_first {s s' : St} (h : persist env opts s = (.ok (), s')) :
    ∃ t, s'.trace = s.trace ++ t ∧ ∀ n p q, (⟨p, q, .insert⟩ : Job) ∈ asked t → (⟨n, p, .insert⟩ : Job) ∈ asked t →
      [(⟨p, q, .insert⟩ : Job), ⟨n, p, .insert⟩].Sublist (asked t) := by
  obtain ⟨cs, t, hc, ht, ha⟩ := save_calls env opts h
  refine ⟨t, ht, ?_⟩
  rw [ha]
  exact fun n p q hp hn => changes_order env opts hc hp hn

/-- **C129** Of two entities inserted below the same parent, added to different fields of it, the model of the one whose field has the lower name is asked for first. -/
theorem C129_fields_in_order {s s' : St} (h : persist env opts s = (.ok (), s')) :
    ∃ t, s'.trace = s.trace ++ t ∧ ∀ n n' p k k', k < k' → Added s.now s.kidPool none p k n → Added s.now s.kidPool none p k' n' →
      (⟨n, p, .insert⟩ : Job) ∈ asked t → (⟨n', p, .insert⟩ : Job) ∈ asked t → [(⟨n, p, .insert⟩ : Job), ⟨n', p, .insert⟩].Sublist (asked t) := by
  obtain ⟨cs, t, hc, ht, ha⟩ := save_calls env opts h
  refine ⟨t, ht, ?_⟩
  rw [ha]
  exact fun n n' p k k' hlt h1 h2 hp hn => changes_field_order env opts hc hlt h1 h2 hp hn

/-- **C129** Of two inserted entities, one the parent of the other, the parent is handed to the executor first, if their models have the same type, or if every inserted entity with a model of the child's type has an inserted
parent with a model of the parent's type. Missing for the full property: see `C129_child_written_first`. -/
theorem C129_parent_written_first_partial {s s' : St} (h : persist env opts s = (.ok (), s')) (hd : opts.dryRun = false) :
    ∃ (t : Trace) (rs : List (Option Model)) (h2 : Heap), s'.trace = s.trace ++ t ∧ List.Forall₂ (Answered env h2) (asked t) rs ∧
      ∀ n p q mp mn, Inserts (asked t) rs p q mp → Inserts (asked t) rs n p mn →
        (mp.typ = mn.typ ∨ ∀ n' p' m', Inserts (asked t) rs n' p' m' → m'.typ = mn.typ → ∃ q' m'', Inserts (asked t) rs p' q' m'' ∧ m''.typ = mp.typ) →
        InsertedBefore mp mn (written t) := by
  obtain ⟨cs, t, rs, h2, hc, ht, ha, hans, hw⟩ := save_answers env opts h hd
  refine ⟨t, rs, h2, ht, hans, ?_⟩
  intro n p q mp mn hp hn hyp
  rw [hw]
  rw [ha] at hp hn hyp hans
  have hlen := hans.length_eq
  have hfst : ((jobs cs).zip rs).map Prod.fst = jobs cs := List.map_fst_zip (by omega)
  have memj : ∀ {j : Job} {r : Option Model}, (j, r) ∈ (jobs cs).zip rs → j ∈ jobs cs := fun hm => (List.of_mem_zip hm).1
  -- a row and the row of its parent
  have order : ∀ n p q mp mn, Inserts (jobs cs) rs p q mp → Inserts (jobs cs) rs n p mn →
      [((⟨p, q, .insert⟩ : Job), mp), (⟨n, p, .insert⟩, mn)].Sublist (insRows ((jobs cs).zip rs)) := by
    intro n p q mp mn hp hn
    refine insRows_pair (pair_zip ?_ ?_ ?_ hp hn)
    · rw [hfst]; exact changes_order env opts hc (memj hp) (memj hn)
    · rw [hfst]; exact insert_count env opts hc _ rfl
    · rw [hfst]; exact insert_count env opts hc _ rfl
  have hfirst : (insRows ((jobs cs).zip rs)).Pairwise fun a b => b.1.op = .insert → a.1.op = .insert := by
    have h1 : ((jobs cs).zip rs).Pairwise fun a b => b.1.op = .insert → a.1.op = .insert := by
      rw [← List.pairwise_map (f := Prod.fst) (R := fun a b : Job => b.op = .insert → a.op = .insert), hfst]
      exact jobs_insert_first env opts hc
    unfold insRows
    refine List.Pairwise.filterMap _ ?_ h1
    intro a b hab x hx y hy
    simp only [Option.map_eq_some_iff] at hx hy
    obtain ⟨_, _, rfl⟩ := hx
    obtain ⟨_, _, rfl⟩ := hy
    exact hab
  have hcount : ∀ j : Job, j.op = .insert → ((insRows ((jobs cs).zip rs)).map Prod.fst).count j ≤ 1 := by
    intro j hj
    have hsub : ((insRows ((jobs cs).zip rs)).map Prod.fst).Sublist (jobs cs) := by
      have : ∀ Z : List (Job × Option Model), ((insRows Z).map Prod.fst).Sublist (Z.map Prod.fst) := by
        intro Z
        induction Z with
        | nil => exact List.Sublist.refl _
        | cons z Z ih =>
          obtain ⟨j, r⟩ := z
          cases r with
          | none => exact ih.trans (List.sublist_cons_self _ _)
          | some m => exact ih.cons_cons _
      have h := this ((jobs cs).zip rs)
      rwa [hfst] at h
    exact (hsub.count_le _).trans (insert_count env opts hc _ hj)
  rw [entries_rows]
  have hon := order n p q mp mn hp hn
  have hpW := mem_insRows.2 hp
  have hnW := mem_insRows.2 hn
  have hyp' : mp.typ = mn.typ ∨ (mp.typ ≠ mn.typ ∧ ∀ x ∈ insRows ((jobs cs).zip rs), x.1.op = .insert → x.2.typ = mn.typ →
      ∃ y : Job × Model, [y, x].Sublist (insRows ((jobs cs).zip rs)) ∧ y.2.typ = mp.typ) := by
    by_cases he : mp.typ = mn.typ
    · exact .inl he
    · refine .inr ⟨he, ?_⟩
      rintro ⟨⟨n', p', o⟩, m'⟩ hx ho hm
      dsimp only at ho hm
      subst ho
      obtain ⟨q', m'', hq, hty⟩ := (hyp.resolve_left he) n' p' m' (mem_insRows.1 hx) hm
      exact ⟨_, order n' p' q' m'' m' hq (mem_insRows.1 hx), hty⟩
  clear order hyp
  generalize insRows ((jobs cs).zip rs) = W at *
  generalize hE : W.map (fun x => (⟨x.1.op, x.2, if x.1.op = .update then [(s.snap x.1.node).bind Snap.po] else []⟩ : Entry)) = E
  obtain ⟨rest, hb⟩ := batches_insert E
  have htypes : E.map (fun e => e.model.typ) = W.map fun x => x.2.typ := by rw [← hE, List.map_map]; rfl
  have hany : ∀ {j : Job} {m : Model}, (j, m) ∈ W → j.op = .insert → (E.any fun e => decide (e.op = .insert ∧ e.model.typ = m.typ)) = true := by
    intro j m hm hj
    rw [List.any_eq_true]
    exact ⟨_, by rw [← hE]; exact List.mem_map.2 ⟨_, hm, rfl⟩, by simp [hj]⟩
  have hmod : ∀ t, (batch E .insert t).models = (W.filter fun x => decide (x.1.op = .insert ∧ x.2.typ = t)).map Prod.snd := by
    intro t
    simp only [batch, ← hE, List.filter_map, List.map_map]
    rfl
  rcases hyp' with heq | ⟨hne, hyp⟩
  · left
    refine ⟨batch E .insert mn.typ, ?_, rfl, ?_⟩
    · rw [hb]
      refine List.mem_append_left _ (List.mem_map.2 ⟨_, List.mem_filter.2 ⟨?_, hany hnW rfl⟩, rfl⟩)
      rw [mem_firsts, htypes]
      exact List.mem_map.2 ⟨_, hnW, rfl⟩
    · rw [hmod]
      have := (hon.filter fun x => decide (x.1.op = .insert ∧ x.2.typ = mn.typ)).map Prod.snd
      simpa [heq] using this
  · right
    refine ⟨batch E .insert mp.typ, batch E .insert mn.typ, ?_, rfl, rfl, ?_, ?_⟩
    · rw [hb]
      refine List.Sublist.trans ?_ (List.sublist_append_left _ _)
      -- the first row with the type of the child
      have hf : [mp.typ, mn.typ].Sublist (firsts (W.map fun x => x.2.typ)) := by
        have hmem : mn.typ ∈ W.map fun x => x.2.typ := List.mem_map.2 ⟨_, hnW, rfl⟩
        obtain ⟨l1, l2, hl, hno⟩ := List.eq_append_cons_of_mem hmem
        obtain ⟨W1, W2, rfl, rfl, h2⟩ := List.map_eq_append_iff.1 hl
        obtain ⟨x, W3, rfl, hx, rfl⟩ := List.map_eq_cons_iff.1 h2
        have hins : x.1.op = .insert := by
          have hpw := (List.pairwise_append.1 hfirst).2.1
          rcases List.mem_append.1 hnW with hm | hm
          · exact absurd (List.mem_map.2 ⟨_, hm, rfl⟩) hno
          · rcases List.mem_cons.1 hm with rfl | hm
            · rfl
            · exact (List.pairwise_cons.1 hpw).1 _ hm rfl
        obtain ⟨y, hy, hty⟩ := hyp x (by simp) hins hx
        have hin : mp.typ ∈ W1.map fun x => x.2.typ := by
          obtain ⟨u1, u2, hu, hy1, hx2⟩ := pair_split hy
          rcases List.append_eq_append_iff.1 hu with ⟨v, rfl, hv⟩ | ⟨v, rfl, hv⟩
          · -- `x` begins the second part or `y` would have to be in it
            rcases List.mem_append.1 hy1 with h | h
            · exact hty ▸ List.mem_map.2 ⟨y, h, rfl⟩
            · exfalso
              have hc1 := hcount x.1 hins
              rw [List.map_append, List.count_append] at hc1
              have h3 : x ∈ W3 := by
                cases v with
                | nil => simp at h
                | cons z v =>
                  rw [List.cons_append, List.cons.injEq] at hv
                  rw [hv.2]; exact List.mem_append_right _ hx2
              have h4 : 0 < (W3.map Prod.fst).count x.1 := List.count_pos_iff.2 (List.mem_map.2 ⟨_, h3, rfl⟩)
              rw [List.map_cons, List.count_cons_self] at hc1
              omega
          · exact hty ▸ List.mem_map.2 ⟨y, List.mem_append_left _ hy1, rfl⟩
        rw [List.map_append, List.map_cons, hx]
        exact firsts_order hin hno
      have hf2 := hf.filter fun t => E.any fun e => decide (e.op = .insert ∧ e.model.typ = t)
      have : [mp.typ, mn.typ].filter (fun t => E.any fun e => decide (e.op = .insert ∧ e.model.typ = t)) = [mp.typ, mn.typ] := by
        simp only [List.filter_cons, hany hpW rfl, hany hnW rfl, if_true, List.filter_nil]
      rw [this] at hf2
      rw [htypes]
      exact hf2.map (batch E .insert)
    · rw [hmod]
      exact List.mem_map.2 ⟨_, List.mem_filter.2 ⟨hpW, by simp⟩, rfl⟩
    · rw [hmod]
      exact List.mem_map.2 ⟨_, List.mem_filter.2 ⟨hnW, by simp⟩, rfl⟩

/-- the batches of inserts come first, in the order of `firsts`; the rest are no inserts -/
theorem batches_split (es : List Entry) : ∃ l, batches es =
    ((firsts (es.map fun e => e.model.typ)).filter fun t => es.any fun e => decide (e.op = .insert ∧ e.model.typ = t)).map (batch es .insert) ++ l ∧ ∀ a ∈ l, a.op ≠ .insert := by
  unfold batches
  rw [List.flatMap_cons]
  refine ⟨_, rfl, ?_⟩
  intro a ha
  simp only [List.flatMap_cons, List.flatMap_nil, List.append_nil, List.mem_append, List.mem_map] at ha
  rcases ha with ⟨_, _, rfl⟩ | ⟨_, _, rfl⟩ <;> simp [batch]

/-- Among the first requests for models there is one for an inserted row of type `a` and none for an inserted row of type `b`. -/
def FirstBefore (js : List Job) (rs : List (Option Model)) (a b : Nat) : Prop :=
  ∃ Z1 Z2, js.zip rs = Z1 ++ Z2 ∧ (∃ j m, (j, some m) ∈ Z1 ∧ j.op = .insert ∧ m.typ = a) ∧ ∀ j m, (j, some m) ∈ Z1 → j.op = .insert → m.typ ≠ b

/-- **C129** Of two inserted rows of different types, the first is written before the second exactly if the first request for its type comes before the first request for the type of the other. So whether a parent is written before its
child depends on which types the save came across first, in the whole aggregate. -/
theorem C129_order_exact {s s' : St} (h : persist env opts s = (.ok (), s')) (hd : opts.dryRun = false) :
    ∃ (t : Trace) (rs : List (Option Model)) (h2 : Heap), s'.trace = s.trace ++ t ∧ List.Forall₂ (Answered env h2) (asked t) rs ∧
      ∀ n p m n' p' m', Inserts (asked t) rs n p m → Inserts (asked t) rs n' p' m' → m.typ ≠ m'.typ →
        (InsertedBefore m m' (written t) ↔ FirstBefore (asked t) rs m.typ m'.typ) := by
  obtain ⟨cs, t, rs, h2, hc, ht, ha, hans, hw⟩ := save_answers env opts h hd
  refine ⟨t, rs, h2, ht, hans, ?_⟩
  intro n p m n' p' m' hm hm' hne
  rw [hw]
  rw [ha] at hm hm' hans ⊢
  have hlen := hans.length_eq
  have hfst : ((jobs cs).zip rs).map Prod.fst = jobs cs := List.map_fst_zip (by omega)
  have hfirst : (insRows ((jobs cs).zip rs)).Pairwise fun a b => b.1.op = .insert → a.1.op = .insert := by
    have h1 : ((jobs cs).zip rs).Pairwise fun a b => b.1.op = .insert → a.1.op = .insert := by
      rw [← List.pairwise_map (f := Prod.fst) (R := fun a b : Job => b.op = .insert → a.op = .insert), hfst]
      exact jobs_insert_first env opts hc
    unfold insRows
    refine List.Pairwise.filterMap _ ?_ h1
    intro a b hab x hx y hy
    simp only [Option.map_eq_some_iff] at hx hy
    obtain ⟨_, _, rfl⟩ := hx
    obtain ⟨_, _, rfl⟩ := hy
    exact hab
  rw [entries_rows]
  have hW := mem_insRows.2 hm
  have hW' := mem_insRows.2 hm'
  have hF : FirstBefore (jobs cs) rs m.typ m'.typ ↔ ∃ W1 W2, insRows ((jobs cs).zip rs) = W1 ++ W2 ∧ (∃ x ∈ W1, x.1.op = .insert ∧ x.2.typ = m.typ) ∧ ∀ x ∈ W1, x.1.op = .insert → x.2.typ ≠ m'.typ := by
    constructor
    · rintro ⟨Z1, Z2, hz, ⟨j, mm, h1, h2, h3⟩, h4⟩
      refine ⟨insRows Z1, insRows Z2, ?_, ⟨(j, mm), mem_insRows.2 h1, h2, h3⟩, fun x hx => h4 x.1 x.2 (mem_insRows.1 hx)⟩
      rw [hz]; exact List.filterMap_append
    · rintro ⟨W1, W2, hz, ⟨x, h1, h2, h3⟩, h4⟩
      obtain ⟨Z1, Z2, hz', rfl, rfl⟩ := List.filterMap_eq_append_iff.1 hz
      exact ⟨Z1, Z2, hz', ⟨x.1, x.2, mem_insRows.1 h1, h2, h3⟩, fun j mm hj => h4 (j, mm) (mem_insRows.2 hj)⟩
  rw [hF]
  clear hF hm hm' hfst hlen hans
  generalize insRows ((jobs cs).zip rs) = W at *
  generalize hE : W.map (fun x => (⟨x.1.op, x.2, if x.1.op = .update then [(s.snap x.1.node).bind Snap.po] else []⟩ : Entry)) = E
  obtain ⟨rest, hb, hrest⟩ := batches_split E
  have htypes : E.map (fun e => e.model.typ) = W.map fun x => x.2.typ := by rw [← hE, List.map_map]; rfl
  have hany : ∀ {j : Job} {m : Model}, (j, m) ∈ W → j.op = .insert → (E.any fun e => decide (e.op = .insert ∧ e.model.typ = m.typ)) = true := by
    intro j m hm hj
    rw [List.any_eq_true]
    exact ⟨_, by rw [← hE]; exact List.mem_map.2 ⟨_, hm, rfl⟩, by simp [hj]⟩
  have hmod : ∀ t, (batch E .insert t).models = (W.filter fun x => decide (x.1.op = .insert ∧ x.2.typ = t)).map Prod.snd := by
    intro t
    simp only [batch, ← hE, List.filter_map, List.map_map]
    rfl
  have htyp : ∀ {t : Nat} {x : Model}, x ∈ (batch E .insert t).models → x.typ = t := by
    intro t x hx
    rw [hmod] at hx
    obtain ⟨y, hy, rfl⟩ := List.mem_map.1 hx
    exact (of_decide_eq_true (List.mem_filter.1 hy).2).2
  rw [hb]
  constructor
  · intro hI
    have key : [m.typ, m'.typ].Sublist (firsts (W.map fun x => x.2.typ)) := by
      rw [← htypes]
      rcases hI with ⟨a, hain, hop, hsub⟩ | ⟨a, b, hab, hopa, hopb, hma, hmb⟩
      · exfalso
        rcases List.mem_append.1 hain with h1 | h1
        · obtain ⟨t, _, rfl⟩ := List.mem_map.1 h1
          exact hne ((htyp (hsub.subset (by simp))).trans (htyp (hsub.subset (by simp))).symm)
        · exact hrest _ h1 hop
      · have hf := hab.filter fun a => decide (a.op = .insert)
        have hnil : rest.filter (fun a => decide (a.op = .insert)) = [] := List.filter_eq_nil_iff.2 fun a ha => by simpa using hrest a ha
        rw [List.filter_append, hnil, List.append_nil] at hf
        have hf2 := hf.trans List.filter_sublist
        simp only [List.filter_cons, hopa, hopb, decide_true, if_true, List.filter_nil] at hf2
        obtain ⟨ts, hts, he⟩ := List.sublist_map_iff.1 hf2
        obtain ⟨t1, ts, rfl, rfl, he1⟩ := List.map_eq_cons_iff.1 he.symm
        obtain ⟨t2, ts, rfl, rfl, he2⟩ := List.map_eq_cons_iff.1 he1
        rw [List.map_eq_nil_iff] at he2
        subst he2
        rw [htyp hma, htyp hmb]
        exact hts.trans List.filter_sublist
    obtain ⟨T1, T2, hT, h1, h2⟩ := firsts_split hne key
    obtain ⟨W1, W2, rfl, rfl, rfl⟩ := List.map_eq_append_iff.1 hT
    obtain ⟨x, hx, hxt⟩ := List.mem_map.1 h1
    refine ⟨W1, W2, rfl, ⟨x, hx, ?_, hxt⟩, fun y hy _ he => h2 (List.mem_map.2 ⟨y, hy, he⟩)⟩
    rcases List.mem_append.1 hW' with h3 | h3
    · exact absurd (List.mem_map.2 ⟨_, h3, rfl⟩) h2
    · exact (List.pairwise_append.1 hfirst).2.2 x hx _ h3 rfl
  · rintro ⟨W1, W2, rfl, ⟨x, hx, hxo, hxt⟩, hno⟩
    right
    refine ⟨batch E .insert m.typ, batch E .insert m'.typ, ?_, rfl, rfl, ?_, ?_⟩
    · refine List.Sublist.trans ?_ (List.sublist_append_left _ _)
      have hf : [m.typ, m'.typ].Sublist (firsts (E.map fun e => e.model.typ)) := by
        -- up to `x` there are inserts only
        obtain ⟨V1, V2, rfl⟩ := List.append_of_mem hx
        have hins : ∀ y ∈ V1 ++ [x], y.1.op = .insert := by
          intro y hy
          rcases List.mem_append.1 hy with hy | hy
          · have hp := (List.pairwise_append.1 (List.pairwise_append.1 hfirst).1).2.2
            exact hp y hy x (by simp) hxo
          · rw [List.mem_singleton.1 hy]; exact hxo
        have hsplit : (V1 ++ x :: V2) ++ W2 = (V1 ++ [x]) ++ (V2 ++ W2) := by simp
        rw [htypes]
        rw [hsplit] at hW' ⊢
        rw [List.map_append]
        refine firsts_pair (List.mem_map.2 ⟨x, by simp, hxt⟩) ?_ ?_
        · intro hc'
          obtain ⟨y, hy, he⟩ := List.mem_map.1 hc'
          refine hno y ?_ (hins y hy) he
          rcases List.mem_append.1 hy with hy | hy
          · exact List.mem_append_left _ hy
          · rw [List.mem_singleton.1 hy]; simp
        · rw [← List.map_append]
          exact List.mem_map.2 ⟨_, hW', rfl⟩
      have hf2 := hf.filter fun t => E.any fun e => decide (e.op = .insert ∧ e.model.typ = t)
      have : [m.typ, m'.typ].filter (fun t => E.any fun e => decide (e.op = .insert ∧ e.model.typ = t)) = [m.typ, m'.typ] := by
        simp only [List.filter_cons, hany hW rfl, hany hW' rfl, if_true, List.filter_nil]
      rw [this] at hf2
      exact hf2.map (batch E .insert)
    · rw [hmod]
      exact List.mem_map.2 ⟨_, List.mem_filter.2 ⟨hW, by simp⟩, rfl⟩
    · rw [hmod]
      exact List.mem_map.2 ⟨_, List.mem_filter.2 ⟨hW', by simp⟩, rfl⟩

/-! ## Concrete cases -/

namespace Demo
/-- orders (20) have type 1, their lines (10, 11) type 2, the lines' details (below 10) type 3. -/
def levelAttr (p : Ptr) : Attr := { stdAttr p with typ := if p < 10 then 3 else if p < 20 then 2 else 1 }

/-- order 20 has two lists of lines, `f1` and `f2`; lines 10 and 11 have lists of details. -/
def levelSt (f1 f2 f10 f11 : List Ptr) (snap : Node → Option Snap) (h1 : ∀ c ∈ f1, c < 20) (h2 : ∀ c ∈ f2, c < 20) (h10 : ∀ c ∈ f10, c < 10) (h11 : ∀ c ∈ f11, c < 11) : St :=
  { heap := heapOf [(20, [(1, f1), (2, f2)]), (10, [(1, f10)]), (11, [(1, f11)])] levelAttr
      (by
        intro x hx g hg c hc
        simp only [List.mem_cons, List.not_mem_nil, or_false] at hx
        rcases hx with rfl | rfl | rfl
        · simp only [List.mem_cons, List.not_mem_nil, or_false] at hg
          rcases hg with rfl | rfl
          · exact h1 c hc
          · exact h2 c hc
        · simp only [List.mem_singleton] at hg; subst hg; exact h10 c hc
        · simp only [List.mem_singleton] at hg; subst hg; exact h11 c hc)
      (by simp),
    roots := [20], deleted := [], snap := snap, errs := [], actions := [], output := 0,
    eventCtx := false, trace := [] }

/-- nothing was stored. -/
def nothingStored (n : Node) : Option Snap :=
  match n with
  | none => some ⟨none, [], by simp⟩
  | some _ => none

/-- order 20 was stored with line 10 in its first list. -/
def oneLineStored (n : Node) : Option Snap :=
  match n with
  | none => some ⟨none, [(0, [some 20])], by simp⟩
  | some 20 => some ⟨some ⟨1, 20, 0, 0⟩, [(1, [some 10]), (2, [])], by simp⟩
  | some 10 => some ⟨some ⟨2, 10, 20, 0⟩, [(1, [])], by simp⟩
  | some _ => none

/-- a new order, with a line in each list, each with a detail. -/
def freshOrder : St := levelSt [10] [11] [1] [2] nothingStored (by decide) (by decide) (by decide) (by decide)

/-- the stored line 10 gets a new detail, and the second list a new line with a detail. -/
def lateLine : St := levelSt [10] [11] [1] [2] oneLineStored (by decide) (by decide) (by decide) (by decide)
end Demo


open Demo in
/-- a new order: orders, then lines, then details -/
example : view okEnv stdOpts freshOrder =
    (true, [⟨some 20, none, .insert⟩, ⟨some 10, some 20, .insert⟩, ⟨some 1, some 10, .insert⟩, ⟨some 11, some 20, .insert⟩, ⟨some 2, some 11, .insert⟩],
      [(.insert, [20]), (.insert, [10, 11]), (.insert, [1, 2])]) := by decide +kernel

open Demo in
/-- the hypotheses of `C129_fields_in_order` are met for the lines 10 and 11 -/
example : Added freshOrder.now freshOrder.kidPool none (some 20) 1 (some 10) ∧ Added freshOrder.now freshOrder.kidPool none (some 20) 2 (some 11) := by
  have hr : Reach freshOrder.now none (some 20) := .step .root ⟨0, [some 20], by decide, by decide⟩
  refine ⟨⟨hr, ⟨[some 10], by decide, by decide⟩, ?_⟩, hr, ⟨[some 11], by decide, by decide⟩, ?_⟩ <;>
  · rintro ⟨f, cs, h1, _⟩
    simp [freshOrder, levelSt, St.kidPool, nothingStored] at h1

open Demo in
/-- the hypotheses of `C129_parent_written_first_partial` are met for the detail 2 of the new line 11 -/
example : ∃ (js : List Job) (rs : List (Option Model)), asked ((persist okEnv stdOpts freshOrder).2.trace) = js ∧ js.map (fun j => match stdConv freshOrder.heap j.node (some j.parent) with | .ok m => some m | _ => none) = rs ∧
    Inserts js rs (some 11) (some 20) ⟨2, 11, 20, 0⟩ ∧ Inserts js rs (some 2) (some 11) ⟨3, 2, 11, 0⟩ ∧
    ∀ n' p' m', Inserts js rs n' p' m' → m'.typ = 3 → ∃ q' m'', Inserts js rs p' q' m'' ∧ m''.typ = 2 := by
  refine ⟨[⟨some 20, none, .insert⟩, ⟨some 10, some 20, .insert⟩, ⟨some 1, some 10, .insert⟩, ⟨some 11, some 20, .insert⟩, ⟨some 2, some 11, .insert⟩],
    [some ⟨1, 20, 0, 0⟩, some ⟨2, 10, 20, 0⟩, some ⟨3, 1, 10, 0⟩, some ⟨2, 11, 20, 0⟩, some ⟨3, 2, 11, 0⟩], by decide +kernel, by decide +kernel, by simp [Inserts], by simp [Inserts], ?_⟩
  intro n' p' m' h ht
  simp only [Inserts, List.zip_cons_cons, List.zip_nil_right, List.mem_cons, Prod.mk.injEq, Job.mk.injEq, Option.some.injEq, List.not_mem_nil, or_false, and_true] at h
  rcases h with ⟨⟨rfl, rfl⟩, rfl⟩ | ⟨⟨rfl, rfl⟩, rfl⟩ | ⟨⟨rfl, rfl⟩, rfl⟩ | ⟨⟨rfl, rfl⟩, rfl⟩ | ⟨⟨rfl, rfl⟩, rfl⟩ <;> simp at ht
  · exact ⟨some 20, ⟨2, 10, 20, 0⟩, by simp [Inserts], rfl⟩
  · exact ⟨some 20, ⟨2, 11, 20, 0⟩, by simp [Inserts], rfl⟩

open Demo in
/-- **C129 is false in general**: line 11 and its detail 2 are new, and the stored line 10 gets the new detail 1. The models are asked for in the right order, but the details are written before the line: a database
that checks foreign keys rejects the save. -/
theorem C129_child_written_first :
    view okEnv stdOpts lateLine =
      (true, [⟨some 1, some 10, .insert⟩, ⟨some 11, some 20, .insert⟩, ⟨some 2, some 11, .insert⟩], [(.insert, [1, 2]), (.insert, [11])]) := by decide +kernel

namespace Demo
/-- order 20 was stored with line 10 in its first list, which has detail 1. -/
def lineWithDetailStored (n : Node) : Option Snap :=
  match n with
  | none => some ⟨none, [(0, [some 20])], by simp⟩
  | some 20 => some ⟨some ⟨1, 20, 0, 0⟩, [(1, [some 10]), (2, [])], by simp⟩
  | some 10 => some ⟨some ⟨2, 10, 20, 0⟩, [(1, [some 1])], by simp⟩
  | some 1 => some ⟨some ⟨3, 1, 10, 0⟩, [], by simp⟩
  | some _ => none

/-- line 10 is taken out of the order, with its detail. -/
def lineRemoved : St := levelSt [] [] [1] [] lineWithDetailStored (by decide) (by decide) (by decide) (by decide)
end Demo

open Demo in
/-- **C129**: with recursive delete it is the other way round from what foreign keys need: the removed line is deleted before its detail. -/
theorem C129_parent_deleted_first :
    view okEnv { stdOpts with recursiveDelete := true } lineRemoved =
      (true, [⟨some 10, some 20, .delete⟩, ⟨some 1, some 10, .delete⟩], [(.delete, [10]), (.delete, [1])]) := by decide +kernel

end Ddd
