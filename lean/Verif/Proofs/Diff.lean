import Verif.Proofs.Sets
/-! Helper lemmas about `walk` and `entityDiff`. -/
set_option linter.unusedSectionVars false
set_option linter.unusedVariables false
namespace Ddd
open Spec
variable {N : Type} [DecidableEq N]

omit [DecidableEq N] in
theorem Graph.height_lt_of_has (g : Graph N) {p : N} {k : Key} {c : N} (h : Has g.kids p k c) :
    g.height c < g.height p := by
  obtain ⟨cs, h1, h2⟩ := h
  exact g.wf h1 h2

omit [DecidableEq N] in
theorem Graph.height_le_of_reach (g : Graph N) {p c : N} (h : Reach g.kids p c) :
    g.height c ≤ g.height p := by
  induction h with
  | root => exact Nat.le_refl _
  | step _ hc ih =>
    obtain ⟨k, hk⟩ := hc
    have := g.height_lt_of_has hk
    omega

omit [DecidableEq N] in
theorem reach_trans {kids : Kids N} {a b c : N} (h1 : Reach kids a b) (h2 : Reach kids b c) :
    Reach kids a c := by
  induction h2 with
  | root => exact h1
  | step _ hc ih => exact ih.step hc

omit [DecidableEq N] in
theorem reach_head {kids : Kids N} {a c : N} (h : Reach kids a c) :
    a = c ∨ ∃ b, Child kids a b ∧ Reach kids b c := by
  induction h with
  | root => exact Or.inl rfl
  | step hp hc ih =>
    right
    rcases ih with rfl | ⟨b, h1, h2⟩
    · exact ⟨_, hc, .root⟩
    · exact ⟨b, h1, h2.step hc⟩

omit [DecidableEq N] in
theorem reach_of_child {kids : Kids N} {a b c : N} (h : Child kids a b) (h2 : Reach kids b c) :
    Reach kids a c := reach_trans (Reach.root.step h) h2

/-! ### walk -/

omit [DecidableEq N] in
theorem walkFuel_irrel (g : Graph N) (o : MapOrder N) : ∀ (f1 f2 : Nat) (e : N) (par : Option N),
    g.height e < f1 → g.height e < f2 → walkFuel g o f1 e par = walkFuel g o f2 e par := by
  intro f1
  induction f1 with
  | zero => intro f2 e par h; omega
  | succ f1 ih =>
    intro f2 e par h1 h2
    cases f2 with
    | zero => omega
    | succ f2 =>
      simp only [walkFuel]
      congr 1
      apply List.flatMap_congr
      rintro ⟨k, cs⟩ hg
      apply List.flatMap_congr
      intro c hc
      have := g.wf ((o.perm e _).mem_iff.1 hg) hc
      exact ih _ _ _ (by omega) (by omega)

omit [DecidableEq N] in
/-- `walk` satisfies the recursion of the Go function: the fuel of `walkFuel` never runs out. -/
theorem walk_eq (g : Graph N) (o : MapOrder N) (e : N) (par : Option N) :
    walk g o e par = ⟨e, par⟩ :: (o.ord e (g.kids e)).flatMap fun grp =>
      grp.2.flatMap fun c => walk g o c (some e) := by
  unfold walk
  conv => lhs; rw [walkFuel]
  congr 1
  apply List.flatMap_congr
  rintro ⟨k, cs⟩ hg
  apply List.flatMap_congr
  intro c hc
  have := g.wf ((o.perm e _).mem_iff.1 hg) hc
  exact walkFuel_irrel g o _ _ _ _ (by omega) (by omega)

omit [DecidableEq N] in
/-- `walk` visits exactly the reachable nodes, each with one of its parents. -/
theorem mem_walk (g : Graph N) (o : MapOrder N) (e : N) (par : Option N) (v : Visit N) :
    v ∈ walk g o e par ↔ v = ⟨e, par⟩ ∨
      ∃ p, v.parent = some p ∧ Reach g.kids e p ∧ Child g.kids p v.entity := by
  induction hn : g.height e using Nat.strong_induction_on generalizing e par with
  | _ n ih =>
    rw [walk_eq, List.mem_cons]
    apply or_congr Iff.rfl
    simp only [List.mem_flatMap]
    constructor
    · rintro ⟨⟨k, cs⟩, hg, c, hc, hv⟩
      have hg := (o.perm e _).mem_iff.1 hg
      have hlt := g.wf hg hc
      have hch : Child g.kids e c := ⟨k, cs, hg, hc⟩
      rcases (ih _ (by omega) c (some e) rfl).1 hv with rfl | ⟨p, h1, h2, h3⟩
      · exact ⟨e, rfl, .root, hch⟩
      · exact ⟨p, h1, reach_of_child hch h2, h3⟩
    · rintro ⟨p, h1, h2, h3⟩
      rcases reach_head h2 with rfl | ⟨b, hb, hbp⟩
      · obtain ⟨k, cs, hg, hc⟩ := h3
        refine ⟨(k, cs), (o.perm _ _).mem_iff.2 hg, v.entity, hc, ?_⟩
        rw [walk_eq]
        simp only [List.mem_cons]
        left
        cases v; simp_all
      · obtain ⟨k, cs, hg, hc⟩ := hb
        have hlt := g.wf hg hc
        exact ⟨(k, cs), (o.perm _ _).mem_iff.2 hg, b, hc, (ih _ (by omega) b _ rfl).2 (Or.inr ⟨p, h1, hbp, h3⟩)⟩

omit [DecidableEq N] in
theorem mem_walk_entity (g : Graph N) (o : MapOrder N) (e : N) (par : Option N) (x : N) :
    x ∈ (walk g o e par).map Visit.entity ↔ Reach g.kids e x := by
  simp only [List.mem_map]
  constructor
  · rintro ⟨v, hv, rfl⟩
    rcases (mem_walk g o e par v).1 hv with rfl | ⟨p, _, h2, h3⟩
    · exact .root
    · exact h2.step h3
  · intro h
    cases h with
    | root => exact ⟨⟨e, par⟩, (mem_walk ..).2 (Or.inl rfl), rfl⟩
    | step hp hc => exact ⟨⟨x, some _⟩, (mem_walk ..).2 (Or.inr ⟨_, rfl, hp, hc⟩), rfl⟩

/-! ### entityDiff -/

theorem mem_sortedKids (g : Graph N) (p : N) (x : Key × List N) : x ∈ sortedKids g p ↔ x ∈ g.kids p := by
  unfold sortedKids; exact List.mem_insertionSort _

theorem mem_createdOf {cur old : List N} {c : N} : c ∈ createdOf cur old ↔ c ∈ cur ∧ c ∉ old := by
  simp [createdOf_eq]
theorem mem_remainOf {cur old : List N} {c : N} : c ∈ remainOf cur old ↔ c ∈ cur ∧ c ∈ old := by
  simp [remainOf_eq]
theorem mem_deletedOf {cur old : List N} {c : N} : c ∈ deletedOf cur old ↔ c ∈ old ∧ c ∉ cur := by
  simp [deletedOf_eq]

theorem entityDiffFuel_irrel (g : Graph N) (d : N → Bool) (pool : KidPool N) : ∀ (f1 f2 : Nat) (e : N),
    g.height e < f1 → g.height e < f2 → entityDiffFuel g d pool f1 e = entityDiffFuel g d pool f2 e := by
  intro f1
  induction f1 with
  | zero => intro f2 e h; omega
  | succ f1 ih =>
    intro f2 e h1 h2
    cases f2 with
    | zero => omega
    | succ f2 =>
      simp only [entityDiffFuel]
      apply List.flatMap_congr
      rintro ⟨k, cs⟩ hg
      rw [mem_sortedKids] at hg
      congr 1
      congr 1
      · congr 1
        congr 1
        apply List.flatMap_congr
        intro c hc
        have := g.wf hg (mem_createdOf.1 hc).1
        exact ih _ _ (by omega) (by omega)
      · apply List.flatMap_congr
        intro c hc
        have := g.wf hg (mem_remainOf.1 hc).1
        exact ih _ _ (by omega) (by omega)

/-- `entityDiff` satisfies the recursion of the Go function. -/
theorem entityDiff_eq (g : Graph N) (d : N → Bool) (pool : KidPool N) (p : N) :
    entityDiff g d pool p = (sortedKids g p).flatMap fun grp =>
      mkChange .new p grp.1 (createdOf grp.2 (snapKids pool p grp.1))
        ++ ((createdOf grp.2 (snapKids pool p grp.1)).flatMap fun c => entityDiff g d pool c)
        ++ mkChange .dirty p grp.1 ((remainOf grp.2 (snapKids pool p grp.1)).filter d)
        ++ ((remainOf grp.2 (snapKids pool p grp.1)).flatMap fun c => entityDiff g d pool c)
        ++ mkChange .delete p grp.1 (deletedOf grp.2 (snapKids pool p grp.1)) := by
  unfold entityDiff
  conv => lhs; rw [entityDiffFuel]
  apply List.flatMap_congr
  rintro ⟨k, cs⟩ hg
  rw [mem_sortedKids] at hg
  dsimp only
  congr 1
  congr 1
  · congr 1
    congr 1
    apply List.flatMap_congr
    intro c hc
    have := g.wf hg (mem_createdOf.1 hc).1
    exact entityDiffFuel_irrel g d pool _ _ _ (by omega) (by omega)
  · apply List.flatMap_congr
    intro c hc
    have := g.wf hg (mem_remainOf.1 hc).1
    exact entityDiffFuel_irrel g d pool _ _ _ (by omega) (by omega)

omit [DecidableEq N] in
theorem mem_mkChange {t : ChangeType} {p : N} {k : Key} {cs : List N} {ch : Change N} :
    ch ∈ mkChange t p k cs ↔ cs ≠ [] ∧ ch = ⟨t, p, k, cs⟩ := by
  unfold mkChange
  split
  · next h => simp at h; simp [h]
  · next h => simp at h; simp [h]

/-- A snapshot is a Go map: every key once. -/
def KidPool.Keys (pool : KidPool N) : Prop := ∀ n fields, pool n = some fields → (fields.map Prod.fst).Nodup

omit [DecidableEq N] in
theorem mem_unique_key {l : List (Key × List N)} (h : (l.map Prod.fst).Nodup) {k : Key} {a b : List N}
    (ha : (k, a) ∈ l) (hb : (k, b) ∈ l) : a = b := by
  induction l with
  | nil => simp at ha
  | cons x l ih =>
    simp only [List.map_cons, List.nodup_cons] at h
    rcases List.mem_cons.1 ha with h1 | h1 <;> rcases List.mem_cons.1 hb with h2 | h2
    · have := h1.trans h2.symm; simpa using this
    · subst h1; exact absurd (List.mem_map.2 ⟨(k, b), h2, rfl⟩) h.1
    · subst h2; exact absurd (List.mem_map.2 ⟨(k, a), h1, rfl⟩) h.1
    · exact ih h.2 h1 h2

omit [DecidableEq N] in
theorem mem_snapKids {pool : KidPool N} (hk : pool.Keys) {p : N} {k : Key} {c : N} :
    c ∈ snapKids pool p k ↔ Had pool p k c := by
  unfold snapKids Had
  cases hp : pool p with
  | none => simp
  | some fields =>
    simp only [Option.some.injEq]
    constructor
    · intro h
      cases hf : fields.find? (fun g => g.1 == k) with
      | none => simp [hf] at h
      | some x =>
        simp [hf] at h
        have h1 := List.find?_some hf
        have h2 := List.mem_of_find?_eq_some hf
        simp at h1
        refine ⟨fields, x.2, rfl, ?_, h⟩
        rw [← h1]; exact h2
    · rintro ⟨_, cs, rfl, h1, h2⟩
      cases hf : fields.find? (fun g => g.1 == k) with
      | none =>
        have := List.find?_eq_none.1 hf _ h1
        simp at this
      | some x =>
        have h3 := List.find?_some hf
        have h4 := List.mem_of_find?_eq_some hf
        simp at h3
        have : x.2 = cs := mem_unique_key (hk p fields hp) (k := k) (by rw [← h3]; exact h4) h1
        simp [this, h2]

/-- what `entityDiff` says about one (parent, key). -/
def DiffAt (g : Graph N) (d : N → Bool) (pool : KidPool N) (t : ChangeType) (p : N) (k : Key) (c : N) : Prop :=
  match t with
  | .new => Has g.kids p k c ∧ ¬ Had pool p k c
  | .dirty => Has g.kids p k c ∧ Had pool p k c ∧ d c = true
  | .delete => Had pool p k c ∧ Field g.kids p k ∧ ¬ Has g.kids p k c
  | .clear => False

omit [DecidableEq N] in
theorem has_iff_of_mem (g : Graph N) {p : N} {k : Key} {cs : List N} (h : (k, cs) ∈ g.kids p) (c : N) :
    Has g.kids p k c ↔ c ∈ cs := by
  constructor
  · rintro ⟨cs', h1, h2⟩
    rw [mem_unique_key (g.keys p) h h1]; exact h2
  · exact fun hc => ⟨cs, h, hc⟩

theorem entityDiff_mem (g : Graph N) (d : N → Bool) (pool : KidPool N) (hk : pool.Keys) (root : N)
    (ch : Change N) :
    ch ∈ entityDiff g d pool root ↔ ∃ p k cs, Reach g.kids root p ∧ (k, cs) ∈ g.kids p ∧
      (ch ∈ mkChange .new p k (createdOf cs (snapKids pool p k)) ∨
       ch ∈ mkChange .dirty p k ((remainOf cs (snapKids pool p k)).filter d) ∨
       ch ∈ mkChange .delete p k (deletedOf cs (snapKids pool p k))) := by
  induction hn : g.height root using Nat.strong_induction_on generalizing root with
  | _ n ih =>
    rw [entityDiff_eq]
    simp only [List.mem_flatMap, List.mem_append]
    constructor
    · rintro ⟨⟨k, cs⟩, hg, h⟩
      rw [mem_sortedKids] at hg
      rcases h with (((h | ⟨c, hc, h⟩) | h) | ⟨c, hc, h⟩) | h
      · exact ⟨root, k, cs, .root, hg, Or.inl h⟩
      · have hc' := (mem_createdOf.1 hc).1
        have := g.wf hg hc'
        obtain ⟨p, k', cs', h1, h2, h3⟩ := (ih _ (by omega) c rfl).1 h
        exact ⟨p, k', cs', reach_of_child ⟨k, cs, hg, hc'⟩ h1, h2, h3⟩
      · exact ⟨root, k, cs, .root, hg, Or.inr (Or.inl h)⟩
      · have hc' := (mem_remainOf.1 hc).1
        have := g.wf hg hc'
        obtain ⟨p, k', cs', h1, h2, h3⟩ := (ih _ (by omega) c rfl).1 h
        exact ⟨p, k', cs', reach_of_child ⟨k, cs, hg, hc'⟩ h1, h2, h3⟩
      · exact ⟨root, k, cs, .root, hg, Or.inr (Or.inr h)⟩
    · rintro ⟨p, k, cs, hr, hg, h⟩
      rcases reach_head hr with rfl | ⟨b, ⟨k', cs', hg', hb⟩, hbp⟩
      · refine ⟨(k, cs), (mem_sortedKids ..).2 hg, ?_⟩
        rcases h with h | h | h
        · exact Or.inl (Or.inl (Or.inl (Or.inl h)))
        · exact Or.inl (Or.inl (Or.inr h))
        · exact Or.inr h
      · have := g.wf hg' hb
        have hin := (ih _ (by omega) b rfl).2 ⟨p, k, cs, hbp, hg, h⟩
        refine ⟨(k', cs'), (mem_sortedKids ..).2 hg', ?_⟩
        by_cases ho : b ∈ snapKids pool root k'
        · exact Or.inl (Or.inr ⟨b, mem_remainOf.2 ⟨hb, ho⟩, hin⟩)
        · exact Or.inl (Or.inl (Or.inl (Or.inr ⟨b, mem_createdOf.2 ⟨hb, ho⟩, hin⟩)))

/-- membership of one entity in a change of `entityDiff`. -/
theorem entityDiff_char (g : Graph N) (d : N → Bool) (pool : KidPool N) (hk : pool.Keys) (root : N)
    (t : ChangeType) (p : N) (k : Key) (c : N) :
    (∃ ch ∈ entityDiff g d pool root, ch.ctype = t ∧ ch.parent = p ∧ ch.key = k ∧ c ∈ ch.children) ↔
      Reach g.kids root p ∧ DiffAt g d pool t p k c := by
  constructor
  · rintro ⟨ch, hch, rfl, rfl, rfl, hc⟩
    obtain ⟨p, k, cs, hr, hg, h⟩ := (entityDiff_mem g d pool hk root ch).1 hch
    simp only [mem_mkChange] at h
    rcases h with ⟨_, rfl⟩ | ⟨_, rfl⟩ | ⟨_, rfl⟩
    · refine ⟨hr, ?_⟩
      simp only [DiffAt, has_iff_of_mem g hg, ← mem_snapKids hk]
      exact mem_createdOf.1 hc
    · refine ⟨hr, ?_⟩
      simp only [DiffAt, has_iff_of_mem g hg, ← mem_snapKids hk]
      rw [List.mem_filter, mem_remainOf] at hc
      exact ⟨hc.1.1, hc.1.2, hc.2⟩
    · refine ⟨hr, ?_⟩
      simp only [DiffAt, has_iff_of_mem g hg, ← mem_snapKids hk]
      have := mem_deletedOf.1 hc
      exact ⟨this.1, ⟨cs, hg⟩, this.2⟩
  · rintro ⟨hr, h⟩
    cases t with
    | new =>
      obtain ⟨⟨cs, hg, hc⟩, hno⟩ := h
      have hm : c ∈ createdOf cs (snapKids pool p k) :=
        mem_createdOf.2 ⟨hc, fun h => hno ((mem_snapKids hk).1 h)⟩
      exact ⟨_, (entityDiff_mem g d pool hk root _).2 ⟨p, k, cs, hr, hg, Or.inl
        (mem_mkChange.2 ⟨List.ne_nil_of_mem hm, rfl⟩)⟩, rfl, rfl, rfl, hm⟩
    | dirty =>
      obtain ⟨⟨cs, hg, hc⟩, ho, hd⟩ := h
      have hm : c ∈ (remainOf cs (snapKids pool p k)).filter d :=
        List.mem_filter.2 ⟨mem_remainOf.2 ⟨hc, (mem_snapKids hk).2 ho⟩, hd⟩
      exact ⟨_, (entityDiff_mem g d pool hk root _).2 ⟨p, k, cs, hr, hg, Or.inr (Or.inl
        (mem_mkChange.2 ⟨List.ne_nil_of_mem hm, rfl⟩))⟩, rfl, rfl, rfl, hm⟩
    | delete =>
      obtain ⟨ho, ⟨cs, hg⟩, hno⟩ := h
      have hm : c ∈ deletedOf cs (snapKids pool p k) :=
        mem_deletedOf.2 ⟨(mem_snapKids hk).2 ho, fun h => hno ⟨cs, hg, h⟩⟩
      exact ⟨_, (entityDiff_mem g d pool hk root _).2 ⟨p, k, cs, hr, hg, Or.inr (Or.inr
        (mem_mkChange.2 ⟨List.ne_nil_of_mem hm, rfl⟩))⟩, rfl, rfl, rfl, hm⟩
    | clear => exact absurd h id

theorem entityDiff_children (g : Graph N) (d : N → Bool) (pool : KidPool N) (hk : pool.Keys) (root : N)
    (ch : Change N) (h : ch ∈ entityDiff g d pool root) : ch.children ≠ [] ∧ ch.children.Nodup := by
  obtain ⟨p, k, cs, _, _, h2⟩ := (entityDiff_mem g d pool hk root ch).1 h
  simp only [mem_mkChange] at h2
  clear h
  rcases h2 with ⟨h, rfl⟩ | ⟨h, rfl⟩ | ⟨h, rfl⟩
  · exact ⟨h, by simp only [createdOf_eq]; exact (List.nodup_dedup _).filter _⟩
  · exact ⟨h, by simp only [remainOf_eq]; exact ((List.nodup_dedup _).filter _).filter _⟩
  · exact ⟨h, by simp only [deletedOf_eq]; exact (List.nodup_dedup _).filter _⟩

/-! ### uniqueness in trees -/

omit [DecidableEq N] in
/-- two nodes above the same node are comparable when every entity sits in one place. -/
theorem reach_comparable {kids : Kids N} {root a b x : N} (hone : OnePlace kids root)
    (ra : Reach kids root a) (rb : Reach kids root b) (ha : Reach kids a x) (hb : Reach kids b x) :
    Reach kids a b ∨ Reach kids b a := by
  induction ha with
  | root => exact Or.inr hb
  | @step p c hp hc ih =>
    cases hb with
    | root => exact Or.inl (hp.step hc)
    | @step q _ hq hc' =>
      obtain ⟨k, hk⟩ := hc
      obtain ⟨k', hk'⟩ := hc'
      have := (hone p k c q k' (reach_trans ra hp) (reach_trans rb hq) hk hk').1
      subst this
      exact ih hq

omit [DecidableEq N] in
/-- the subtrees of two different children of one parent are disjoint. -/
theorem siblings_disjoint (g : Graph N) {root p a b x : N} {k k' : Key} (hone : OnePlace g.kids root)
    (rp : Reach g.kids root p) (ha : Has g.kids p k a) (hb : Has g.kids p k' b)
    (hax : Reach g.kids a x) (hbx : Reach g.kids b x) : a = b ∧ k = k' := by
  have key : ∀ a b k k', Has g.kids p k a → Has g.kids p k' b → Reach g.kids a b → a = b := by
    intro a b k k' ha hb hab
    cases hab with
    | root => rfl
    | @step q _ hq hc =>
      exfalso
      obtain ⟨k2, hk2⟩ := hc
      have ra : Reach g.kids root a := rp.step ⟨k, ha⟩
      have := (hone q k2 b p k' (reach_trans ra hq) rp hk2 hb).1
      subst this
      have h1 := g.height_le_of_reach hq
      have h2 := g.height_lt_of_has ha
      omega
  have hcmp := reach_comparable hone (rp.step ⟨k, ha⟩) (rp.step ⟨k', hb⟩) hax hbx
  have hab : a = b := by
    rcases hcmp with h | h
    · exact key _ _ _ _ ha hb h
    · exact (key _ _ _ _ hb ha h).symm
  subst hab
  exact ⟨rfl, (hone p k a p k' rp rp ha hb).2⟩

/-- identity of a change record. -/
def Change.tag (c : Change N) : ChangeType × N × Key := (c.ctype, c.parent, c.key)

omit [DecidableEq N] in
theorem mkChange_tag_nodup (t : ChangeType) (p : N) (k : Key) (cs : List N) :
    ((mkChange t p k cs).map Change.tag).Nodup := by
  unfold mkChange; split <;> simp

theorem entityDiff_parent_reach (g : Graph N) (d : N → Bool) (pool : KidPool N) (hk : pool.Keys) {root : N}
    {ch : Change N} (h : ch ∈ entityDiff g d pool root) : Reach g.kids root ch.parent := by
  obtain ⟨p, k, cs, hr, _, h⟩ := (entityDiff_mem g d pool hk root ch).1 h
  simp only [mem_mkChange] at h
  rcases h with ⟨_, rfl⟩ | ⟨_, rfl⟩ | ⟨_, rfl⟩ <;> exact hr

theorem flatMap_nodup {A B : Type} {l : List A} {f : A → List B} (hl : l.Nodup)
    (hf : ∀ a ∈ l, (f a).Nodup) (hd : ∀ a ∈ l, ∀ b ∈ l, a ≠ b → ∀ x ∈ f a, x ∉ f b) :
    (l.flatMap f).Nodup := by
  induction l with
  | nil => simp
  | cons a l ih =>
    rw [List.flatMap_cons, List.nodup_append]
    rw [List.nodup_cons] at hl
    refine ⟨hf a (by simp), ih hl.2 (fun b hb => hf b (by simp [hb]))
      (fun b hb c hc => hd b (by simp [hb]) c (by simp [hc])), ?_⟩
    rintro x hx y hy rfl
    obtain ⟨b, hb, hxb⟩ := List.mem_flatMap.1 hy
    exact hd a (by simp) b (by simp [hb]) (fun h => hl.1 (h ▸ hb)) x hx hxb

theorem entityDiff_tag_nodup (g : Graph N) (d : N → Bool) (pool : KidPool N) (hk : pool.Keys) (top root : N)
    (hone : OnePlace g.kids top) (ht : Reach g.kids top root) :
    ((entityDiff g d pool root).map Change.tag).Nodup := by
  induction hn : g.height root using Nat.strong_induction_on generalizing root with
  | _ n ih =>
    rw [entityDiff_eq, List.map_flatMap]
    -- records of a child subtree have their parent in that subtree
    have sub : ∀ c x, x ∈ (entityDiff g d pool c).map Change.tag → Reach g.kids c x.2.1 := by
      intro c x hx
      obtain ⟨ch, hch, rfl⟩ := List.mem_map.1 hx
      exact entityDiff_parent_reach g d pool hk hch
    have notroot : ∀ {k : Key} {c : N} {x : N}, Has g.kids root k c → Reach g.kids c x → x ≠ root := by
      rintro k c x h1 h2 rfl
      have := g.height_lt_of_has h1
      have := g.height_le_of_reach h2
      omega
    have subs : ∀ (k : Key) (cs : List N) (l : List N), (k, cs) ∈ g.kids root → l.Nodup → (∀ c ∈ l, c ∈ cs) →
        ((l.flatMap fun c => entityDiff g d pool c).map Change.tag).Nodup := by
      intro k cs l hg hl hsub
      rw [List.map_flatMap]
      apply flatMap_nodup hl
      · intro c hc
        have hcc := hsub c hc
        have := g.wf hg hcc
        exact ih _ (by omega) c (ht.step ⟨k, cs, hg, hcc⟩) rfl
      · intro a ha b hb hab x hxa hxb
        exact hab (siblings_disjoint g hone ht ⟨cs, hg, hsub a ha⟩ ⟨cs, hg, hsub b hb⟩ (sub a x hxa) (sub b x hxb)).1
    have mem_subs : ∀ (l : List N) x, x ∈ (l.flatMap fun c => entityDiff g d pool c).map Change.tag →
        ∃ c ∈ l, Reach g.kids c x.2.1 := by
      intro l x hx
      rw [List.map_flatMap] at hx
      obtain ⟨c, hc, h⟩ := List.mem_flatMap.1 hx
      exact ⟨c, hc, sub c x h⟩
    have mem_mk : ∀ t k (l : List N) x, x ∈ (mkChange t root k l).map Change.tag → x = (t, root, k) := by
      intro t k l x hx
      obtain ⟨ch, hch, rfl⟩ := List.mem_map.1 hx
      rw [(mem_mkChange.1 hch).2]; rfl
    apply flatMap_nodup
    · unfold sortedKids
      exact (List.perm_insertionSort _ _).nodup_iff.2 (List.Nodup.of_map _ (g.keys root))
    · rintro ⟨k, cs⟩ hg
      rw [mem_sortedKids] at hg
      dsimp only
      have hcr : ∀ c ∈ createdOf cs (snapKids pool root k), c ∈ cs := fun c hc => (mem_createdOf.1 hc).1
      have hre : ∀ c ∈ remainOf cs (snapKids pool root k), c ∈ cs := fun c hc => (mem_remainOf.1 hc).1
      have ncr : (createdOf cs (snapKids pool root k)).Nodup := by
        rw [createdOf_eq]; exact (List.nodup_dedup _).filter _
      have nre : (remainOf cs (snapKids pool root k)).Nodup := by
        rw [remainOf_eq]; exact (List.nodup_dedup _).filter _
      have d1 : ∀ t (l : List N) (m : List N), (∀ c ∈ m, c ∈ cs) →
          ∀ x ∈ (mkChange t root k l).map Change.tag,
          ∀ y ∈ (m.flatMap fun c => entityDiff g d pool c).map Change.tag, x ≠ y := by
        intro t l m hm x hx y hy hxy
        subst hxy
        obtain ⟨c, hc, hr⟩ := mem_subs _ _ hy
        rw [mem_mk _ _ _ _ hx] at hr
        exact notroot ⟨cs, hg, hm c hc⟩ hr rfl
      simp only [List.map_append]
      refine List.nodup_append.2 ⟨List.nodup_append.2 ⟨List.nodup_append.2 ⟨List.nodup_append.2
        ⟨mkChange_tag_nodup .., subs k cs _ hg ncr hcr, ?_⟩, mkChange_tag_nodup .., ?_⟩,
        subs k cs _ hg nre hre, ?_⟩, mkChange_tag_nodup .., ?_⟩
      · exact d1 _ _ _ hcr
      · intro x hx y hy
        rcases List.mem_append.1 hx with hx | hx
        · rw [mem_mk _ _ _ _ hx, mem_mk _ _ _ _ hy]; simp
        · exact (d1 _ _ _ hcr y hy x hx).symm
      · intro x hx y hy
        rcases List.mem_append.1 hx with hx | hx
        · rcases List.mem_append.1 hx with hx | hx
          · exact d1 _ _ _ hre x hx y hy
          · rintro rfl
            obtain ⟨a, ha, hra⟩ := mem_subs _ _ hx
            obtain ⟨b, hb, hrb⟩ := mem_subs _ _ hy
            have := (siblings_disjoint g hone ht ⟨cs, hg, hcr a ha⟩ ⟨cs, hg, hre b hb⟩ hra hrb).1
            subst this
            exact (mem_createdOf.1 ha).2 (mem_remainOf.1 hb).2
        · exact d1 _ _ _ hre x hx y hy
      · intro x hx y hy
        rcases List.mem_append.1 hx with hx | hx
        · rcases List.mem_append.1 hx with hx | hx
          · rcases List.mem_append.1 hx with hx | hx
            · rw [mem_mk _ _ _ _ hx, mem_mk _ _ _ _ hy]; simp
            · exact (d1 _ _ _ hcr y hy x hx).symm
          · rw [mem_mk _ _ _ _ hx, mem_mk _ _ _ _ hy]; simp
        · exact (d1 _ _ _ hre y hy x hx).symm
    · rintro ⟨k, cs⟩ hg ⟨k', cs'⟩ hg' hne x hx hx'
      rw [mem_sortedKids] at hg hg'
      have hkk : k ≠ k' := by
        rintro rfl
        exact hne (by rw [mem_unique_key (g.keys root) hg hg'])
      have split : ∀ (k : Key) (cs : List N), (k, cs) ∈ g.kids root → x ∈ List.map Change.tag
          (mkChange .new root k (createdOf cs (snapKids pool root k))
            ++ ((createdOf cs (snapKids pool root k)).flatMap fun c => entityDiff g d pool c)
            ++ mkChange .dirty root k ((remainOf cs (snapKids pool root k)).filter d)
            ++ ((remainOf cs (snapKids pool root k)).flatMap fun c => entityDiff g d pool c)
            ++ mkChange .delete root k (deletedOf cs (snapKids pool root k))) →
          (∃ t, x = (t, root, k)) ∨ ∃ c, Has g.kids root k c ∧ Reach g.kids c x.2.1 := by
        intro k cs hg hx
        simp only [List.map_append, List.mem_append] at hx
        rcases hx with (((hx | hx) | hx) | hx) | hx
        · exact Or.inl ⟨_, mem_mk _ _ _ _ hx⟩
        · obtain ⟨c, hc, hr⟩ := mem_subs _ _ hx
          exact Or.inr ⟨c, ⟨cs, hg, (mem_createdOf.1 hc).1⟩, hr⟩
        · exact Or.inl ⟨_, mem_mk _ _ _ _ hx⟩
        · obtain ⟨c, hc, hr⟩ := mem_subs _ _ hx
          exact Or.inr ⟨c, ⟨cs, hg, (mem_remainOf.1 hc).1⟩, hr⟩
        · exact Or.inl ⟨_, mem_mk _ _ _ _ hx⟩
      rcases split k cs hg hx with ⟨t, h1⟩ | ⟨c, h1, h2⟩ <;>
        rcases split k' cs' hg' hx' with ⟨t', h1'⟩ | ⟨c', h1', h2'⟩
      · rw [h1] at h1'; simp at h1'; exact hkk h1'.2
      · rw [h1] at h2'; exact notroot h1' h2' rfl
      · rw [h1'] at h2; exact notroot h1 h2 rfl
      · exact hkk (siblings_disjoint g hone ht h1 h1' h2 h2').2

end Ddd
