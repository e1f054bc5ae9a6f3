import Verif.Props.Rows
import Verif.Spec.Paths
/-!
# C08, C60: how often recursive delete deletes
-/
set_option linter.unusedVariables false
set_option linter.unusedSimpArgs false
namespace Ddd
open Spec

section
variable {N : Type}

theorem filter_flatMap_sublist {α β : Type} (p : α → Bool) (f : α → List β) (l : List α) : ((l.filter p).flatMap f).Sublist (l.flatMap f) := by
  induction l with
  | nil => simp
  | cons a l ih =>
    by_cases h : p a = true
    · rw [List.filter_cons_of_pos h, List.flatMap_cons, List.flatMap_cons]
      exact ih.append_left _
    · rw [List.filter_cons_of_neg h, List.flatMap_cons]
      exact ih.trans (List.sublist_append_right _ _)

theorem path_reach {kids : Kids N} {e n : N} {π : List (Nat × Nat)} (h : Path kids e π n) : Reach kids e n := by
  induction h with
  | here e => exact .root
  | down h1 h2 _ ih => exact reach_of_child ⟨_, _, h1, List.mem_of_getElem? h2⟩ ih

theorem reach_path {kids : Kids N} {e n : N} (h : Reach kids e n) : ∃ π, Path kids e π n := by
  have key : ∀ {e p : N} {π : List (Nat × Nat)}, Path kids e π p → ∀ {c}, Child kids p c → ∃ π', Path kids e π' c := by
    intro e p π hp
    induction hp with
    | here e =>
      rintro c ⟨k, cs, h1, h2⟩
      obtain ⟨i, hi, rfl⟩ := List.mem_iff_getElem.1 h2
      exact ⟨[(k, i)], .down h1 (List.getElem?_eq_getElem hi) (.here _)⟩
    | down h1 h2 _ ih =>
      intro c hc
      obtain ⟨π', hπ⟩ := ih hc
      exact ⟨_, .down h1 h2 hπ⟩
  induction h with
  | root => exact ⟨[], .here _⟩
  | step _ hc ih => obtain ⟨π, hπ⟩ := ih; exact key hπ hc

/-- the places below the children `cs`, counted from `i0` on -/
theorem places_children {kids : Kids N} {W : N → List N} {k : Nat} : ∀ (cs : List N) (i0 : Nat), (∀ c ∈ cs, ∃ L : List (List (Nat × Nat) × N), L.Nodup ∧ (∀ π n, (π, n) ∈ L ↔ Path kids c π n) ∧ (W c).Perm (L.map Prod.snd)) →
    ∃ L : List (List (Nat × Nat) × N), L.Nodup ∧ (∀ π n, (π, n) ∈ L ↔ ∃ i c π', cs[i]? = some c ∧ π = (k, i0 + i) :: π' ∧ Path kids c π' n) ∧ (cs.flatMap W).Perm (L.map Prod.snd) := by
  intro cs
  induction cs with
  | nil => intro i0 _; exact ⟨[], by simp, by simp, by simp⟩
  | cons c cs ih =>
    intro i0 h
    obtain ⟨L1, a1, a2, a3⟩ := h c (by simp)
    obtain ⟨L2, b1, b2, b3⟩ := ih (i0 + 1) fun x hx => h x (by simp [hx])
    refine ⟨L1.map (fun x => ((k, i0) :: x.1, x.2)) ++ L2, ?_, ?_, ?_⟩
    · refine List.nodup_append.2 ⟨?_, b1, ?_⟩
      · refine a1.map ?_
        rintro ⟨x1, x2⟩ ⟨y1, y2⟩ hxy
        simp at hxy
        simp [hxy]
      · rintro ⟨x1, x2⟩ hx y hy rfl
        obtain ⟨z, hz, hz'⟩ := List.mem_map.1 hx
        obtain ⟨i, c', π', -, hπ, -⟩ := (b2 _ _).1 hy
        simp at hz'
        rw [← hz'.1] at hπ
        simp at hπ
        omega
    · intro π n
      simp only [List.mem_append, List.mem_map]
      constructor
      · rintro (⟨⟨x1, x2⟩, hx, hxy⟩ | hx)
        · simp at hxy
          obtain ⟨rfl, rfl⟩ := hxy
          exact ⟨0, c, x1, by simp, by simp, (a2 _ _).1 hx⟩
        · obtain ⟨i, c', π', h1, h2, h3⟩ := (b2 _ _).1 hx
          exact ⟨i + 1, c', π', by simpa using h1, by rw [h2]; simp; omega, h3⟩
      · rintro ⟨i, c', π', h1, h2, h3⟩
        cases i with
        | zero =>
          simp at h1
          subst h1
          exact .inl ⟨(π', n), (a2 _ _).2 h3, by simp [h2]⟩
        | succ i => exact .inr ((b2 _ _).2 ⟨i, c', π', by simpa using h1, by rw [h2]; simp; omega, h3⟩)
    · rw [List.flatMap_cons, List.map_append, List.map_map]
      exact a3.append b3

theorem places_groups {kids : Kids N} {W : N → List N} : ∀ (gs : List (Key × List N)), (gs.map Prod.fst).Nodup →
    (∀ g ∈ gs, ∀ c ∈ g.2, ∃ L : List (List (Nat × Nat) × N), L.Nodup ∧ (∀ π n, (π, n) ∈ L ↔ Path kids c π n) ∧ (W c).Perm (L.map Prod.snd)) →
    ∃ L : List (List (Nat × Nat) × N), L.Nodup ∧ (∀ π n, (π, n) ∈ L ↔ ∃ k cs i c π', (k, cs) ∈ gs ∧ cs[i]? = some c ∧ π = (k, i) :: π' ∧ Path kids c π' n) ∧ (gs.flatMap fun g => g.2.flatMap W).Perm (L.map Prod.snd) := by
  intro gs
  induction gs with
  | nil => intro _ _; exact ⟨[], by simp, by simp, by simp⟩
  | cons g gs ih =>
    intro hn h
    obtain ⟨k, cs⟩ := g
    rw [List.map_cons, List.nodup_cons] at hn
    obtain ⟨L1, a1, a2, a3⟩ := places_children (kids := kids) (W := W) (k := k) cs 0 (h (k, cs) (by simp))
    obtain ⟨L2, b1, b2, b3⟩ := ih hn.2 fun x hx => h x (by simp [hx])
    refine ⟨L1 ++ L2, List.nodup_append.2 ⟨a1, b1, ?_⟩, ?_, ?_⟩
    · rintro ⟨x1, x2⟩ hx y hy rfl
      obtain ⟨i, c, π', -, h1, -⟩ := (a2 _ _).1 hx
      obtain ⟨k', cs', i', c', π'', h2, -, h3, -⟩ := (b2 _ _).1 hy
      rw [h1] at h3
      simp at h3
      exact hn.1 (List.mem_map.2 ⟨_, h2, h3.1.1.symm⟩)
    · intro π n
      rw [List.mem_append, a2, b2]
      constructor
      · rintro (⟨i, c, π', h1, h2, h3⟩ | ⟨k', cs', i, c, π', h0, h1, h2, h3⟩)
        · exact ⟨k, cs, i, c, π', by simp, h1, by simpa using h2, h3⟩
        · exact ⟨k', cs', i, c, π', by simp [h0], h1, h2, h3⟩
      · rintro ⟨k', cs', i, c, π', h0, h1, h2, h3⟩
        rcases List.mem_cons.1 h0 with h0 | h0
        · simp at h0
          obtain ⟨rfl, rfl⟩ := h0
          exact .inl ⟨i, c, π', h1, by simpa using h2, h3⟩
        · exact .inr ⟨k', cs', i, c, π', h0, h1, h2, h3⟩
    · rw [List.flatMap_cons, List.map_append]
      exact a3.append b3

/-- the walk visits every place once -/
theorem walk_places (g : Graph N) (o : MapOrder N) (e : N) (par : Option N) :
    ∃ L : List (List (Nat × Nat) × N), L.Nodup ∧ (∀ π n, (π, n) ∈ L ↔ Path g.kids e π n) ∧ ((walk g o e par).map Visit.entity).Perm (L.map Prod.snd) := by
  induction hn : g.height e using Nat.strong_induction_on generalizing e par with
  | _ n ih =>
    obtain ⟨L, a1, a2, a3⟩ := places_groups (kids := g.kids) (W := fun c => (walk g o c (some e)).map Visit.entity) (o.ord e (g.kids e))
      ((((o.perm e _).map Prod.fst).nodup_iff).2 (g.keys e)) (fun grp hg c hc => ih _ (by rw [← hn]; exact g.wf ((o.perm e _).mem_iff.1 hg) hc) c (some e) rfl)
    refine ⟨([], e) :: L, List.nodup_cons.2 ⟨?_, a1⟩, ?_, ?_⟩
    · intro hm
      obtain ⟨_, _, _, _, _, _, _, h, _⟩ := (a2 _ _).1 hm
      simp at h
    · intro π x
      rw [List.mem_cons, a2]
      constructor
      · rintro (h | ⟨k, cs, i, c, π', h1, h2, rfl, h4⟩)
        · simp at h; obtain ⟨rfl, rfl⟩ := h; exact .here _
        · exact .down ((o.perm e _).mem_iff.1 h1) h2 h4
      · intro hp
        cases hp with
        | here => exact .inl rfl
        | down h1 h2 h3 => exact .inr ⟨_, _, _, _, _, (o.perm e _).mem_iff.2 h1, h2, rfl, h3⟩
    · rw [walk_eq, List.map_cons, List.map_cons]
      refine List.Perm.cons _ ?_
      simp only [List.map_flatMap]
      exact a3

/-- what hangs directly below the visited entities: the visited entities but the first -/
theorem walk_below (g : Graph N) (o o2 : MapOrder N) (e : N) (par : Option N) :
    (e :: (walk g o e par).flatMap fun v => (o2.ord v.entity (g.kids v.entity)).flatMap Prod.snd).Perm ((walk g o e par).map Visit.entity) := by
  induction hn : g.height e using Nat.strong_induction_on generalizing e par with
  | _ n ih =>
    rw [walk_eq, List.map_cons, List.flatMap_cons]
    refine List.Perm.cons _ ?_
    simp only [List.map_flatMap, List.flatMap_assoc]
    have ih' : ∀ grp ∈ o.ord e (g.kids e), ∀ c ∈ grp.2, (c :: (walk g o c (some e)).flatMap fun v => (o2.ord v.entity (g.kids v.entity)).flatMap Prod.snd).Perm ((walk g o c (some e)).map Visit.entity) :=
      fun grp hg c hc => ih _ (by rw [← hn]; exact g.wf ((o.perm e _).mem_iff.1 hg) hc) c (some e) rfl
    refine ((((o2.perm e _).trans (o.perm e _).symm).flatMap_right Prod.snd).append_right _).trans ?_
    generalize o.ord e (g.kids e) = gs at ih'
    clear ih hn
    induction gs with
    | nil => simp
    | cons grp gs ihg =>
      have h2 := ihg fun x hx => ih' x (by simp [hx])
      have h1 := ih' grp (by simp)
      simp only [List.flatMap_cons]
      have h3 : (grp.2 ++ (grp.2.flatMap fun c => (walk g o c (some e)).flatMap fun v => (o2.ord v.entity (g.kids v.entity)).flatMap Prod.snd)).Perm (grp.2.flatMap fun c => (walk g o c (some e)).map Visit.entity) := by
        generalize grp.2 = cs at h1
        induction cs with
        | nil => simp
        | cons c cs ihc =>
          simp only [List.flatMap_cons, List.cons_append]
          have a := ihc fun x hx => h1 x (by simp [hx])
          have b := h1 c (by simp)
          refine List.Perm.trans ?_ (b.append a)
          simp only [List.cons_append]
          refine List.Perm.cons _ ?_
          simp only [← List.append_assoc]
          exact List.Perm.append_right _ List.perm_append_comm
      refine List.Perm.trans ?_ (h3.append h2)
      simp only [List.append_assoc]
      refine List.Perm.append_left _ ?_
      simp only [← List.append_assoc]
      exact List.Perm.append_right _ List.perm_append_comm

/-- the entities that recursive delete deletes: everything visited from the entities to be deleted -/
theorem recursiveDelete_deletes (g : Graph N) (o1 o2 : MapOrder N) (cs : List (Change N)) :
    (((recursiveDelete g o1 o2 cs).filter fun c => decide (c.ctype = .delete)).flatMap Change.children).Perm
      ((cs.filter fun c => decide (c.ctype = .delete)).flatMap fun item => item.children.flatMap fun r => (walk g o1 r (some item.parent)).map Visit.entity) := by
  have hf : ∀ l : List (Change N), ((l.flatMap fun item => item.children.flatMap fun c => (walk g o1 c (some item.parent)).flatMap fun v => (o2.ord v.entity (g.kids v.entity)).map fun grp =>
      ({ ctype := .delete, parent := v.entity, key := grp.1, children := grp.2 } : Change N)).filter fun c => decide (c.ctype = .delete)) =
      l.flatMap fun item => item.children.flatMap fun c => (walk g o1 c (some item.parent)).flatMap fun v => (o2.ord v.entity (g.kids v.entity)).map fun grp =>
      ({ ctype := .delete, parent := v.entity, key := grp.1, children := grp.2 } : Change N) := by
    intro l
    rw [List.filter_eq_self]
    intro x hx
    simp only [List.mem_flatMap, List.mem_map] at hx
    obtain ⟨_, _, _, _, _, _, _, _, rfl⟩ := hx
    simp
  unfold recursiveDelete
  rw [List.filter_append, hf, List.flatMap_append]
  simp only [List.flatMap_assoc, List.flatMap_map]
  generalize cs.filter (fun c => decide (c.ctype = .delete)) = l
  induction l with
  | nil => simp
  | cons item l ih =>
    simp only [List.flatMap_cons]
    have h1 : (item.children ++ (item.children.flatMap fun c => (walk g o1 c (some item.parent)).flatMap fun v => (o2.ord v.entity (g.kids v.entity)).flatMap fun grp => grp.2)).Perm
        (item.children.flatMap fun r => (walk g o1 r (some item.parent)).map Visit.entity) := by
      generalize item.children = ch
      induction ch with
      | nil => simp
      | cons c ch ihc =>
        simp only [List.flatMap_cons, List.cons_append]
        refine List.Perm.trans ?_ ((walk_below g o1 o2 c (some item.parent)).append ihc)
        simp only [List.cons_append]
        refine List.Perm.cons _ ?_
        simp only [← List.append_assoc]
        exact List.Perm.append_right _ List.perm_append_comm
    refine List.Perm.trans ?_ (h1.append ih)
    simp only [List.append_assoc]
    refine List.Perm.append_left _ ?_
    simp only [← List.append_assoc]
    exact List.Perm.append_right _ List.perm_append_comm

end

section
variable (env : Env) (opts : Opts)

/-- an entity that is taken out of the aggregate and not put elsewhere -/
def TakenOut (s : St) (r : Node) : Prop := (∃ q k, Gone s.now s.kidPool none q k r) ∧ ¬ ∃ p' k', Added s.now s.kidPool none p' k' r

/-- without recursive delete, exactly what is taken out is to be deleted -/
theorem takenOut_iff {s : St} {cs : List (Change Node)} (h : entityChanges env opts s = some cs) (hr : opts.recursiveDelete = false) {r : Node} :
    r ∈ (cs.filter fun c => decide (c.ctype = .delete)).flatMap Change.children ↔ TakenOut s r := by
  obtain ⟨res, h1, rfl⟩ := entityChanges_some env opts h
  rw [if_neg (by simp [hr])]
  have hp := fun p => plan_mem s h1 .delete p r
  simp only [List.mem_flatMap, List.mem_filter, decide_eq_true_eq]
  constructor
  · rintro ⟨c, ⟨hc, ht⟩, hr⟩
    obtain ⟨⟨k, g1⟩, g2⟩ := (hp c.parent).1 ⟨c, hc, ht, rfl, hr⟩
    exact ⟨⟨_, k, g1⟩, g2⟩
  · rintro ⟨⟨q, k, g1⟩, g2⟩
    obtain ⟨c, hc, ht, -, hn⟩ := (hp q).2 ⟨⟨k, g1⟩, g2⟩
    exact ⟨c, ⟨hc, ht⟩, hn⟩

set_option maxHeartbeats 1000000 in
theorem changes_deletes {s : St} {cs : List (Change Node)} (h : entityChanges env opts s = some cs) (hr : opts.recursiveDelete = true) :
    ∃ L, Places s.now (TakenOut s) L ∧ ((cs.filter fun c => decide (c.ctype = .delete)).flatMap Change.children).Perm (L.map fun x => x.2.2) := by
  obtain ⟨res, h1, rfl⟩ := entityChanges_some env opts h
  rw [if_pos hr]
  have hnd := handleEntityMove_nodup _ (diff_nodup s) h1
  have hroots : ∀ r, r ∈ (res.filter fun c => decide (c.ctype = .delete)).flatMap Change.children ↔ TakenOut s r := by
    intro r
    have hp := fun p => plan_mem s h1 .delete p r
    simp only [List.mem_flatMap, List.mem_filter, decide_eq_true_eq]
    constructor
    · rintro ⟨c, ⟨hc, ht⟩, hr⟩
      obtain ⟨⟨k, g1⟩, g2⟩ := (hp c.parent).1 ⟨c, hc, ht, rfl, hr⟩
      exact ⟨⟨_, k, g1⟩, g2⟩
    · rintro ⟨⟨q, k, g1⟩, g2⟩
      obtain ⟨c, hc, ht, -, hn⟩ := (hp q).2 ⟨⟨k, g1⟩, g2⟩
      exact ⟨c, ⟨hc, ht⟩, hn⟩
  have hnd' : ((res.filter fun c => decide (c.ctype = .delete)).flatMap Change.children).Nodup :=
    hnd.sublist (filter_flatMap_sublist _ _ _)
  -- the places below the roots of the list
  have key : ∀ (l : List (Change Node)), (l.flatMap Change.children).Nodup → ∃ L : List (Node × List (Nat × Nat) × Node), L.Nodup ∧
      (∀ r π n, (r, π, n) ∈ L ↔ r ∈ l.flatMap Change.children ∧ Path s.now r π n) ∧
      (l.flatMap fun item => item.children.flatMap fun r => (walk s.graph (env.ord s.trace 3) r (some item.parent)).map Visit.entity).Perm (L.map fun x => x.2.2) := by
    have inner : ∀ (p : Node) (rs : List Node), rs.Nodup → ∃ L : List (Node × List (Nat × Nat) × Node), L.Nodup ∧ (∀ r π n, (r, π, n) ∈ L ↔ r ∈ rs ∧ Path s.now r π n) ∧
        (rs.flatMap fun r => (walk s.graph (env.ord s.trace 3) r (some p)).map Visit.entity).Perm (L.map fun x => x.2.2) := by
      intro p rs
      induction rs with
      | nil => intro _; exact ⟨[], by simp, by simp, by simp⟩
      | cons r rs ih =>
        intro hn
        rw [List.nodup_cons] at hn
        obtain ⟨L1, a1, a2, a3⟩ := walk_places s.graph (env.ord s.trace 3) r (some p)
        obtain ⟨L2, b1, b2, b3⟩ := ih hn.2
        refine ⟨L1.map (fun x => (r, x)) ++ L2, List.nodup_append.2 ⟨a1.map (by intro x y hxy; simpa using hxy), b1, ?_⟩, ?_, ?_⟩
        · rintro ⟨x1, x2, x3⟩ hx y hy rfl
          obtain ⟨z, hz, hz'⟩ := List.mem_map.1 hx
          simp at hz'
          have := ((b2 _ _ _).1 hy).1
          rw [← hz'.1] at this
          exact hn.1 this
        · intro r' π n
          rw [List.mem_append, b2, List.mem_map]
          constructor
          · rintro (⟨⟨z1, z2⟩, hz, hz'⟩ | ⟨g1, g2⟩)
            · simp at hz'
              obtain ⟨rfl, rfl, rfl⟩ := hz'
              exact ⟨by simp, (a2 _ _).1 hz⟩
            · exact ⟨by simp [g1], g2⟩
          · rintro ⟨g1, g2⟩
            rcases List.mem_cons.1 g1 with rfl | g1
            · exact .inl ⟨(π, n), (a2 _ _).2 g2, rfl⟩
            · exact .inr ⟨g1, g2⟩
        · rw [List.flatMap_cons, List.map_append, List.map_map]
          exact a3.append b3
    intro l
    induction l with
    | nil => intro _; exact ⟨[], by simp, by simp, by simp⟩
    | cons c l ih =>
      intro hn
      rw [List.flatMap_cons, List.nodup_append] at hn
      obtain ⟨L1, a1, a2, a3⟩ := inner c.parent c.children hn.1
      obtain ⟨L2, b1, b2, b3⟩ := ih hn.2.1
      refine ⟨L1 ++ L2, List.nodup_append.2 ⟨a1, b1, ?_⟩, ?_, ?_⟩
      · rintro ⟨x1, x2, x3⟩ hx y hy rfl
        exact hn.2.2 _ ((a2 _ _ _).1 hx).1 _ ((b2 _ _ _).1 hy).1 rfl
      · intro r π n
        rw [List.mem_append, a2, b2, List.flatMap_cons, List.mem_append, or_and_right]
      · rw [List.flatMap_cons, List.map_append]
        exact a3.append b3
  obtain ⟨L, a1, a2, a3⟩ := key _ hnd'
  exact ⟨L, ⟨a1, fun r π n => by rw [a2, hroots]⟩, (recursiveDelete_deletes ..).trans a3⟩

theorem jobs_deletes {s : St} {cs : List (Change Node)} (h : entityChanges env opts s = some cs) :
    ((jobs cs).filter fun j => decide (j.op = .delete)).map Job.node = (cs.filter fun c => decide (c.ctype = .delete)).flatMap Change.children := by
  have hc : ∀ c ∈ cs, c.ctype = .clear → c.children = [] := by
    intro c hc ht
    refine List.eq_nil_iff_forall_not_mem.2 fun n hn => ?_
    exact (changes_mem env opts h .clear c.parent n).1 ⟨c, hc, ht, rfl, hn⟩
  clear h
  unfold jobs
  induction cs with
  | nil => simp
  | cons c cs ih =>
    rw [List.flatMap_cons, List.filter_append, List.map_append, ih fun x hx => hc x (by simp [hx])]
    by_cases hd : c.ctype = .delete
    · rw [List.filter_cons_of_pos (by simp [hd]), List.flatMap_cons]
      congr 1
      simp [List.filter_map, Function.comp_def, hd, ChangeType.op]
    · rw [List.filter_cons_of_neg (by simp [hd])]
      cases ht : c.ctype with
      | delete => exact absurd ht hd
      | clear => rw [hc c (by simp) ht]; simp
      | _ => simp [List.filter_map, Function.comp_def, ChangeType.op]

/-- **C08** With recursive delete, the entities a successful save deletes are exactly those at the places below the entities taken out (and not put elsewhere), each deleted once for every such place, whatever the order in which Go
walks its maps. -/
theorem C08_once_per_place {s s' : St} (h : persist env opts s = (.ok (), s')) (hr : opts.recursiveDelete = true) :
    ∃ t L, s'.trace = s.trace ++ t ∧ Places s.now (TakenOut s) L ∧ (((asked t).filter fun j => decide (j.op = .delete)).map Job.node).Perm (L.map fun x => x.2.2) := by
  obtain ⟨cs, t, hc, ht, ha⟩ := save_calls env opts h
  obtain ⟨L, h1, h2⟩ := changes_deletes env opts hc hr
  exact ⟨t, L, ht, h1, by rw [ha, jobs_deletes env opts hc]; exact h2⟩

/-- **C08** So an entity that hangs at one place only below what is taken out is deleted once. -/
theorem C08_once {s s' : St} (h : persist env opts s = (.ok (), s')) (hr : opts.recursiveDelete = true) {n : Node} (hone : ∀ r r' π π', TakenOut s r → TakenOut s r' → Path s.now r π n → Path s.now r' π' n → r = r' ∧ π = π')
    {r : Node} (hout : TakenOut s r) (hreach : Reach s.now r n) : ∃ t, s'.trace = s.trace ++ t ∧ ((asked t).filter fun j => decide (j.op = .delete ∧ j.node = n)).length = 1 := by
  obtain ⟨t, L, ht, hL, hp⟩ := C08_once_per_place env opts h hr
  refine ⟨t, ht, ?_⟩
  have h1 : ((asked t).filter fun j => decide (j.op = .delete ∧ j.node = n)).length = (((asked t).filter fun j => decide (j.op = .delete)).map Job.node).count n := by
    rw [List.count_eq_countP, List.countP_map, List.countP_filter, ← List.countP_eq_length_filter]
    apply List.countP_congr
    intro j _
    simp [and_comm]
  rw [h1, hp.count_eq, List.count_eq_countP, List.countP_map]
  obtain ⟨π, hπ⟩ := reach_path hreach
  have hmem := (hL.all r π n).2 ⟨hout, hπ⟩
  have : L.countP ((fun x => x == n) ∘ fun x => x.2.2) = L.count (r, π, n) := by
    rw [List.count_eq_countP]
    apply List.countP_congr
    rintro ⟨a, b, c⟩ hx
    simp only [Function.comp, beq_iff_eq, Prod.mk.injEq]
    constructor
    · rintro rfl
      obtain ⟨g1, g2⟩ := (hL.all _ _ _).1 hx
      obtain ⟨e1, e2⟩ := hone _ _ _ _ g1 hout g2 hπ
      exact ⟨e1, e2, rfl⟩
    · exact fun h => h.2.2
  rw [this]
  exact List.count_eq_one_of_mem hL.once hmem

/-- how often a hook is called -/
theorem hookCalls_count (b : Bool) (p : Ptr) (ct : ChangeType) (cs : List (Change Node)) : (hookCalls env b cs).count (.hook (some p) ⟨ct, b⟩ .ok) =
    if env.hasHook p ⟨ct, b⟩ = true ∧ ct ≠ .clear then ((cs.filter fun c => decide (c.ctype = ct)).flatMap Change.children).count (some p) else 0 := by
  induction cs with
  | nil => simp [hookCalls]
  | cons c cs ih =>
    have h1 : hookCalls env b (c :: cs) = hookCalls env b [c] ++ hookCalls env b cs := by simp [hookCalls]
    rw [h1, List.count_append, ih]
    have h2 : (hookCalls env b [c]).count (.hook (some p) ⟨ct, b⟩ .ok) = if env.hasHook p ⟨ct, b⟩ = true ∧ ct ≠ .clear ∧ c.ctype = ct then c.children.count (some p) else 0 := by
      simp only [hookCalls, List.flatMap_cons, List.flatMap_nil, List.append_nil]
      generalize c.children = ns
      induction ns with
      | nil => simp
      | cons n ns ihn =>
        rw [List.filterMap_cons, List.count_cons]
        cases n with
        | none => simp only [ihn]; split <;> simp
        | some q =>
          dsimp only
          by_cases hq : c.ctype ≠ .clear ∧ env.hasHook q ⟨c.ctype, b⟩ = true
          · rw [if_pos hq]
            dsimp only
            rw [List.count_cons, ihn]
            by_cases hqp : q = p
            · subst hqp
              by_cases hct : c.ctype = ct
              · subst hct; simp [hq.1, hq.2]
              · have : ¬ (Call.hook (some q) ⟨c.ctype, b⟩ .ok == Call.hook (some q) ⟨ct, b⟩ .ok) = true := by simp [hct]
                simp [hct]
            · simp [hqp]
          · rw [if_neg hq]
            dsimp only
            rw [ihn]
            by_cases hqp : q = p
            · subst hqp
              split
              · rename_i hx
                obtain ⟨x1, x2, rfl⟩ := hx
                exact absurd ⟨x2, x1⟩ hq
              · rfl
            · simp [hqp]
    rw [h2]
    by_cases hct : c.ctype = ct
    · rw [List.filter_cons_of_pos (by simp [hct]), List.flatMap_cons, List.count_append]
      simp only [hct, and_true]
      split <;> rfl
    · rw [List.filter_cons_of_neg (by simp [hct])]
      simp [hct]

/-- **C60** The same with recursive delete: hooks of inserts and updates exactly once, delete hooks once for every place at which the entity hangs below what was taken out. -/
theorem C60_hooks_recursive {s s' : St} (h : persist env opts s = (.ok (), s')) (hr : opts.recursiveDelete = true) :
    ∃ cs mid L, entityChanges env opts s = some cs ∧ s'.trace = s.trace ++ hookCalls env true cs ++ mid ++ hookCalls env false cs ∧ (∀ c ∈ mid, ∀ n kind st, c ≠ .hook n kind st) ∧ Places s.now (TakenOut s) L ∧
      (∀ b p ct, ct = .new ∨ ct = .dirty → (hookCalls env b cs).count (.hook (some p) ⟨ct, b⟩ .ok) =
        if env.hasHook p ⟨ct, b⟩ = true ∧ (∃ ch ∈ cs, ch.ctype = ct ∧ some p ∈ ch.children) then 1 else 0) ∧
      ∀ b p, (hookCalls env b cs).count (.hook (some p) ⟨.delete, b⟩ .ok) = if env.hasHook p ⟨.delete, b⟩ = true then L.countP fun x => decide (x.2.2 = some p) else 0 := by
  obtain ⟨cs, mid, hc, ht, hm, -⟩ := C60_hooks_exact env opts h
  obtain ⟨L, hL, hp⟩ := changes_deletes env opts hc hr
  refine ⟨cs, mid, L, hc, ht, hm, hL, ?_, ?_⟩
  · intro b p ct hct
    rw [hookCalls_count]
    obtain ⟨res, h1, rfl⟩ := entityChanges_some env opts hc
    rw [if_pos hr]
    have hnd := handleEntityMove_nodup _ (diff_nodup s) h1
    have hne : ct ≠ .clear ∧ ct ≠ .delete := by rcases hct with rfl | rfl <;> simp
    have hf : (recursiveDelete s.graph (env.ord s.trace 3) (env.ord s.trace 4) res).filter (fun c => decide (c.ctype = ct)) = res.filter fun c => decide (c.ctype = ct) := by
      unfold recursiveDelete
      rw [List.filter_append]
      conv => rhs; rw [← List.append_nil (res.filter _)]
      congr 1
      rw [List.filter_eq_nil_iff]
      intro x hx
      simp only [List.mem_flatMap, List.mem_map] at hx
      obtain ⟨_, _, _, _, _, _, _, _, rfl⟩ := hx
      simp [Ne.symm hne.2]
    have hn : ((res.filter fun c => decide (c.ctype = ct)).flatMap Change.children).Nodup := hnd.sublist (filter_flatMap_sublist _ _ _)
    have hmem : (∃ ch ∈ recursiveDelete s.graph (env.ord s.trace 3) (env.ord s.trace 4) res, ch.ctype = ct ∧ some p ∈ ch.children) ↔ some p ∈ (res.filter fun c => decide (c.ctype = ct)).flatMap Change.children := by
      rw [← hf]
      simp [List.mem_flatMap, List.mem_filter, and_assoc]
    rw [hf]
    by_cases hh : env.hasHook p ⟨ct, b⟩ = true
    · rw [if_pos ⟨hh, hne.1⟩, List.Nodup.count hn]
      by_cases hx : some p ∈ (res.filter fun c => decide (c.ctype = ct)).flatMap Change.children
      · rw [if_pos hx, if_pos ⟨hh, hmem.2 hx⟩]
      · rw [if_neg hx, if_neg fun g => hx (hmem.1 g.2)]
    · rw [if_neg fun g => hh g.1, if_neg fun g => hh g.1]
  · intro b p
    rw [hookCalls_count, hp.count_eq, List.count_eq_countP, List.countP_map]
    by_cases hh : env.hasHook p ⟨.delete, b⟩ = true
    · simp only [hh, ne_eq, reduceCtorEq, not_false_eq_true, and_self, if_true]
      apply List.countP_congr
      intro x _
      simp [Function.comp]
    · simp [hh]

end

namespace Demo

/-- root 20 held 10 and 11; 11 held 1. -/
def heldBy11 (n : Node) : Option Snap :=
  match n with
  | none => some ⟨none, [(0, [some 20])], by simp⟩
  | some 20 => some ⟨some ⟨1, 20, 0, 0⟩, [(1, [some 10, some 11])], by simp⟩
  | some 10 => some ⟨some ⟨1, 10, 20, 0⟩, [(1, [])], by simp⟩
  | some 11 => some ⟨some ⟨1, 11, 20, 0⟩, [(1, [some 1])], by simp⟩
  | some p => some ⟨some ⟨1, p, 11, 0⟩, [], by simp⟩

/-- 1 goes from 11 to 10, and 10 is removed from 20. -/
def movedThenRemoved : St := { deepSt [11] [1] [] (by decide) (by decide) (by decide) with snap := heldBy11 }

theorem subtree_takenOut (r : Node) : TakenOut subtreeRemoved r ↔ r = some 10 := by
  have h : ((entityChanges okEnv stdOpts subtreeRemoved).map fun cs => (cs.filter fun c => decide (c.ctype = .delete)).flatMap Change.children) = some [some 10] := by decide +kernel
  obtain ⟨cs, hc, hd⟩ := Option.map_eq_some_iff.1 h
  rw [← takenOut_iff okEnv stdOpts hc rfl, hd]
  simp

/-- a subtree is removed: the hypotheses of `C08_once` hold of the entity 1 that hangs below the removed 10 -/
example : (persist okEnv { stdOpts with recursiveDelete := true } subtreeRemoved).1.isOk = true ∧ TakenOut subtreeRemoved (some 10) ∧ Reach subtreeRemoved.now (some 10) (some 1) ∧
    ∀ r r' π π', TakenOut subtreeRemoved r → TakenOut subtreeRemoved r' → Path subtreeRemoved.now r π (some 1) → Path subtreeRemoved.now r' π' (some 1) → r = r' ∧ π = π' := by
  refine ⟨by decide +kernel, (subtree_takenOut _).2 rfl, .step .root ⟨1, [some 1], by decide, by decide⟩, ?_⟩
  have h1 : ∀ π, Path subtreeRemoved.now (some 1) π (some 1) → π = [] := by
    intro π h
    cases h with
    | here => rfl
    | down g1 => exact absurd g1 (by rw [show subtreeRemoved.now (some 1) = [] from rfl]; simp)
  have h10 : ∀ π, Path subtreeRemoved.now (some 10) π (some 1) → π = [(1, 0)] := by
    intro π h
    cases h with
    | @down _ c _ k i cs π' g1 g2 g3 =>
      rw [show subtreeRemoved.now (some 10) = [(1, [some 1])] from rfl] at g1
      simp at g1
      obtain ⟨rfl, rfl⟩ := g1
      cases i with
      | zero => simp at g2; subst g2; rw [h1 _ g3]
      | succ i => simp at g2
  intro r r' π π' hr hr' hp hp'
  rw [subtree_takenOut] at hr hr'
  subst hr hr'
  exact ⟨rfl, by rw [h10 _ hp, h10 _ hp']⟩

end Demo

open Demo in
/-- **C60, C08**: an entity taken out of a parent that stays, and put below one that is removed, is deleted twice, and its hooks are called twice. -/
theorem C60_recursive_twice :
    movedThenRemoved.kidPool (some 11) = some [(1, [some 1])] ∧ movedThenRemoved.now (some 11) = [(1, [])] ∧ movedThenRemoved.now (some 10) = [(1, [some 1])] ∧ movedThenRemoved.now (some 20) = [(1, [some 11])] ∧
    view okEnv { stdOpts with recursiveDelete := true } movedThenRemoved = (true, [⟨some 1, some 11, .delete⟩, ⟨some 10, some 20, .delete⟩, ⟨some 1, some 10, .delete⟩], [(.delete, [1, 10, 1])]) ∧
    ((persist hookEnv { stdOpts with recursiveDelete := true } movedThenRemoved).2.trace.filterMap fun
      | .hook (some p) k st => some (p, k.ctype, k.before, st)
      | _ => none) = [(1, .delete, true, .ok), (10, .delete, true, .ok), (1, .delete, true, .ok), (1, .delete, false, .ok), (10, .delete, false, .ok), (1, .delete, false, .ok)] :=
  ⟨rfl, rfl, rfl, rfl, by decide +kernel, by decide +kernel⟩

end Ddd
