import Verif.Spec.Depth
import Verif.Proofs.Diff
import Verif.Props.Children
import Mathlib.Order.WellFounded
import Mathlib.Data.Fintype.EquivFin
import Mathlib.Data.Fintype.Pigeonhole
/-!
# C113: which object graphs the engine can handle
-/
set_option linter.unusedVariables false
set_option linter.unusedSimpArgs false
set_option linter.unusedSectionVars false
namespace Ddd.Depth
variable {N : Type} [DecidableEq N] {σ : Type}

theorem not_endless {g : Objects N} {e : N} : ¬ Endless g e ↔ Acc (fun c p => Child g p c) e := by
  rw [← not_iff_not, not_not, not_acc_iff_exists_descending_chain]
  rfl

theorem mem_kids {g : Objects N} {o : MapOrder N} {e c : N} : c ∈ (o.ord e (g.kids e)).flatMap Prod.snd ↔ Child g e c := by
  simp only [List.mem_flatMap, (o.perm e (g.kids e)).mem_iff, Child]
  constructor
  · rintro ⟨⟨k, cs⟩, h1, h2⟩; exact ⟨k, cs, h1, h2⟩
  · rintro ⟨k, cs, h1, h2⟩; exact ⟨(k, cs), h1, h2⟩

/-! ## loops -/

theorem each_mono {α : Type} {st st' : α → σ → Option (σ × Bool)} (h : ∀ c s r, st c s = some r → st' c s = some r) :
    ∀ (l : List α) (s : σ) r, each st l s = some r → each st' l s = some r
  | [], s, r, hr => hr
  | c :: cs, s, r, hr => by
    simp only [each] at hr ⊢
    rcases hc : st c s with _ | ⟨a, b⟩
    · simp [hc] at hr
    · rw [h c s _ hc]
      rw [hc] at hr
      cases b
      · exact hr
      · exact each_mono h cs a r hr

/-- if there is no error, all elements of a loop that returns have returned -/
theorem each_all {α : Type} {st : α → σ → Option (σ × Bool)} (hok : ∀ c s a b, st c s = some (a, b) → b = true) :
    ∀ (l : List α) (s : σ) r, each st l s = some r → r.2 = true ∧ ∀ c ∈ l, ∃ s' r', st c s' = some r'
  | [], s, r, hr => by simp only [each] at hr; cases hr; simp
  | c :: cs, s, r, hr => by
    simp only [each] at hr
    rcases hc : st c s with _ | ⟨a, b⟩
    · simp [hc] at hr
    · rw [hc] at hr
      obtain rfl := hok c s a b hc
      obtain ⟨h1, h2⟩ := each_all hok cs a r hr
      refine ⟨h1, fun d hd => ?_⟩
      rcases List.mem_cons.1 hd with rfl | hd
      · exact ⟨s, _, hc⟩
      · exact h2 d hd

/-- a loop all of whose elements return for a deep enough stack, returns for a deep enough stack -/
theorem each_deep {α : Type} {st : Nat → α → σ → Option (σ × Bool)} (mono : ∀ n c s r, st n c s = some r → st (n + 1) c s = some r) :
    ∀ (l : List α), (∀ c ∈ l, ∀ s, ∃ n r, st n c s = some r) → ∀ s, ∃ n r, each (st n) l s = some r
  | [], h, s => ⟨0, _, rfl⟩
  | c :: cs, h, s => by
    have mono' : ∀ n m, n ≤ m → ∀ c s r, st n c s = some r → st m c s = some r := by
      intro n m hnm
      induction hnm with
      | refl => exact fun _ _ _ h => h
      | step _ ih => exact fun c s r h => mono _ _ _ _ (ih c s r h)
    obtain ⟨n, ⟨a, b⟩, hn⟩ := h c (by simp) s
    cases b with
    | false => exact ⟨n, (a, false), by simp [each, hn]⟩
    | true =>
      obtain ⟨m, r, hm⟩ := each_deep mono cs (fun d hd => h d (by simp [hd])) a
      refine ⟨max n m, r, ?_⟩
      simp only [each, mono' n (max n m) (by omega) c s _ hn]
      exact each_mono (fun c s r h => mono' m _ (by omega) c s r h) cs a r hm

theorem appendAll_mono {α : Type} {st st' : α → Option (List (Change N))} :
    ∀ (l : List α) r, (∀ c ∈ l, ∀ r, st c = some r → st' c = some r) → appendAll st l = some r → appendAll st' l = some r
  | [], r, h, hr => hr
  | c :: cs, r, h, hr => by
    simp only [appendAll] at hr ⊢
    rcases hc : st c with _ | a
    · simp [hc] at hr
    · rw [h c (by simp) _ hc]
      rw [hc] at hr
      rcases hd : appendAll st cs with _ | b
      · simp [hd] at hr
      · rw [appendAll_mono cs b (fun d hd => h d (by simp [hd])) hd]
        simpa [hd] using hr

theorem appendAll_some {α : Type} {st : α → Option (List (Change N))} : ∀ (l : List α), (∃ r, appendAll st l = some r) ↔ ∀ c ∈ l, ∃ r, st c = some r
  | [] => by simp [appendAll]
  | c :: cs => by
    have ih := appendAll_some (st := st) cs
    simp only [appendAll, List.mem_cons, forall_eq_or_imp, ← ih]
    rcases st c with _ | a
    · simp
    · rcases appendAll st cs with _ | b <;> simp

theorem appendAll_eq {α : Type} {st : α → Option (List (Change N))} {f : α → List (Change N)} : ∀ (l : List α), (∀ c ∈ l, st c = some (f c)) → appendAll st l = some (l.flatMap f)
  | [], _ => rfl
  | c :: cs, h => by
    simp only [appendAll, h c (by simp), appendAll_eq cs (fun d hd => h d (by simp [hd])), List.flatMap_cons]

/-! ## walk -/

theorem walk_mono (g : Objects N) (o : MapOrder N) (f : Visit N → σ → σ × Bool) : ∀ n e par s r, walkDepth g o f n e par s = some r → walkDepth g o f (n + 1) e par s = some r
  | 0, e, par, s, r, h => by simp [walkDepth] at h
  | n + 1, e, par, s, r, h => by
    rw [walkDepth] at h ⊢
    rcases hf : f ⟨e, par⟩ s with ⟨s', b⟩
    rw [hf] at h
    cases b with
    | false => exact h
    | true => exact each_mono (fun c s r h => walk_mono g o f n c (some e) s r h) _ _ _ h

theorem walk_of_acc (g : Objects N) (o : MapOrder N) (f : Visit N → σ → σ × Bool) {e : N} (h : Acc (fun c p => Child g p c) e) : ∀ par s, ∃ n r, walkDepth g o f n e par s = some r := by
  induction h with
  | intro e _ ih =>
    intro par s
    rcases hf : f ⟨e, par⟩ s with ⟨s', b⟩
    cases b with
    | false => exact ⟨1, (s', false), by simp [walkDepth, hf]⟩
    | true =>
      obtain ⟨n, r, hr⟩ := each_deep (st := fun n c s => walkDepth g o f n c (some e) s) (fun n c s r h => walk_mono g o f n c _ s r h) ((o.ord e (g.kids e)).flatMap Prod.snd)
        (fun c hc s => ih c (mem_kids.1 hc) (some e) s) s'
      exact ⟨n + 1, r, by rw [walkDepth, hf]; exact hr⟩

theorem walk_ok (g : Objects N) (o : MapOrder N) {f : Visit N → σ → σ × Bool} (hf : ∀ v s, (f v s).2 = true) : ∀ n e par s r, walkDepth g o f n e par s = some r →
    r.2 = true ∧ Acc (fun c p => Child g p c) e
  | 0, e, par, s, r, h => by simp [walkDepth] at h
  | n + 1, e, par, s, r, h => by
    rw [walkDepth] at h
    have h2 := hf ⟨e, par⟩ s
    rcases hf' : f ⟨e, par⟩ s with ⟨s', b⟩
    rw [hf'] at h h2
    obtain rfl : b = true := h2
    obtain ⟨h3, h4⟩ := each_all (fun c s a b hab => (walk_ok g o hf n c _ s _ hab).1) _ _ _ h
    refine ⟨h3, .intro _ fun c hc => ?_⟩
    obtain ⟨s'', r', hr⟩ := h4 c (mem_kids.2 hc)
    exact (walk_ok g o hf n c _ _ _ hr).2

/-- **C113** Walking over the entities below `e` comes back exactly if one cannot go from child to child for ever, whatever the callback does (as long as it reports no error). -/
theorem C113_walk_iff (g : Objects N) (o : MapOrder N) {f : Visit N → σ → σ × Bool} (hf : ∀ v s, (f v s).2 = true) (e : N) (par : Option N) (s : σ) :
    Returns (fun n => walkDepth g o f n e par s) ↔ ¬ Endless g e := by
  rw [not_endless]
  simp only [Returns, Option.isSome_iff_exists]
  exact ⟨fun ⟨n, r, h⟩ => (walk_ok g o hf n e par s r h).2, fun h => walk_of_acc g o f h par s⟩

/-- **C113** … and if there is no such way, it comes back whatever errors the callback reports. -/
theorem C113_walk_returns_partial (g : Objects N) (o : MapOrder N) (f : Visit N → σ → σ × Bool) {e : N} (h : ¬ Endless g e) (par : Option N) (s : σ) : Returns (fun n => walkDepth g o f n e par s) := by
  simp only [Returns, Option.isSome_iff_exists]
  exact walk_of_acc g o f (not_endless.1 h) par s

/-! ## entityDiff -/

theorem diffKey_some {dirty : N → Bool} {pool : KidPool N} {st : N → Option (List (Change N))} {p : N} {grp : Key × List N} : (∃ r, diffKey dirty pool st p grp = some r) ↔ ∀ c ∈ grp.2, ∃ r, st c = some r := by
  have h1 := appendAll_some (st := st) (createdOf grp.2 (snapKids pool p grp.1))
  have h2 := appendAll_some (st := st) (remainOf grp.2 (snapKids pool p grp.1))
  have : (∀ c ∈ grp.2, ∃ r, st c = some r) ↔ (∃ r, appendAll st (createdOf grp.2 (snapKids pool p grp.1)) = some r) ∧ ∃ r, appendAll st (remainOf grp.2 (snapKids pool p grp.1)) = some r := by
    rw [h1, h2]
    simp only [mem_createdOf, mem_remainOf]
    constructor
    · exact fun h => ⟨fun c hc => h c hc.1, fun c hc => h c hc.1⟩
    · rintro ⟨h, h'⟩ c hc
      by_cases hk : c ∈ snapKids pool p grp.1
      · exact h' c ⟨hc, hk⟩
      · exact h c ⟨hc, hk⟩
  rw [this]
  simp only [diffKey]
  rcases appendAll st (createdOf grp.2 (snapKids pool p grp.1)) with _ | a
  · simp
  · rcases appendAll st (remainOf grp.2 (snapKids pool p grp.1)) with _ | b <;> simp

theorem diff_succ {g : Objects N} {dirty : N → Bool} {pool : KidPool N} {n : Nat} {p : N} : (∃ r, diffDepth g dirty pool (n + 1) p = some r) ↔ ∀ c, Child g p c → ∃ r, diffDepth g dirty pool n c = some r := by
  rw [diffDepth, appendAll_some]
  simp only [diffKey_some, List.mem_insertionSort]
  constructor
  · rintro h c ⟨k, cs, h1, h2⟩; exact h _ h1 c h2
  · rintro h ⟨k, cs⟩ h1 c h2; exact h c ⟨k, cs, h1, h2⟩

theorem diff_acc {g : Objects N} {dirty : N → Bool} {pool : KidPool N} : ∀ n p, (∃ r, diffDepth g dirty pool n p = some r) → Acc (fun c p => Child g p c) p
  | 0, p, h => by simp [diffDepth] at h
  | n + 1, p, h => .intro _ fun c hc => diff_acc n c (diff_succ.1 h c hc)

theorem diff_up {g : Objects N} {dirty : N → Bool} {pool : KidPool N} : ∀ n p, (∃ r, diffDepth g dirty pool n p = some r) → ∃ r, diffDepth g dirty pool (n + 1) p = some r
  | 0, p, h => by simp [diffDepth] at h
  | n + 1, p, h => diff_succ.2 fun c hc => diff_up n c (diff_succ.1 h c hc)

theorem diff_up' {g : Objects N} {dirty : N → Bool} {pool : KidPool N} {n m : Nat} (hnm : n ≤ m) {p : N} (h : ∃ r, diffDepth g dirty pool n p = some r) : ∃ r, diffDepth g dirty pool m p = some r := by
  induction hnm with
  | refl => exact h
  | step _ ih => exact diff_up _ _ ih

/-- one bound for all elements of a list -/
theorem bound {α : Type} {P : Nat → α → Prop} (mono : ∀ n m a, n ≤ m → P n a → P m a) : ∀ (l : List α), (∀ a ∈ l, ∃ n, P n a) → ∃ n, ∀ a ∈ l, P n a
  | [], _ => ⟨0, by simp⟩
  | a :: l, h => by
    obtain ⟨n, hn⟩ := h a (by simp)
    obtain ⟨m, hm⟩ := bound mono l fun b hb => h b (by simp [hb])
    refine ⟨max n m, fun b hb => ?_⟩
    rcases List.mem_cons.1 hb with rfl | hb
    · exact mono n _ _ (by omega) hn
    · exact mono m _ _ (by omega) (hm b hb)

theorem diff_of_acc {g : Objects N} {dirty : N → Bool} {pool : KidPool N} {p : N} (h : Acc (fun c p => Child g p c) p) : ∃ n r, diffDepth g dirty pool n p = some r := by
  induction h with
  | intro p _ ih =>
    obtain ⟨n, hn⟩ := bound (P := fun n c => ∃ r, diffDepth g dirty pool n c = some r) (fun n m a hnm h => diff_up' hnm h) ((g.kids p).flatMap Prod.snd) (by
      intro c hc
      obtain ⟨⟨k, cs⟩, h1, h2⟩ := List.mem_flatMap.1 hc
      exact ih c ⟨k, cs, h1, h2⟩)
    exact ⟨n + 1, diff_succ.2 fun c ⟨k, cs, h1, h2⟩ => hn c (List.mem_flatMap.2 ⟨_, h1, h2⟩)⟩

/-- **C113** Comparing the entities below `p` with a snapshot comes back exactly if one cannot go from child to child for ever, whatever is in the snapshot and whatever is dirty. -/
theorem C113_diff_iff (g : Objects N) (dirty : N → Bool) (pool : KidPool N) (p : N) : Returns (fun n => diffDepth g dirty pool n p) ↔ ¬ Endless g p := by
  rw [not_endless]
  simp only [Returns, Option.isSome_iff_exists]
  exact ⟨fun ⟨n, h⟩ => diff_acc n p h, diff_of_acc⟩

/-! ## recursiveDelete and getEntityChanged -/

theorem diff_mono {g : Objects N} {dirty : N → Bool} {pool : KidPool N} : ∀ n p r, diffDepth g dirty pool n p = some r → diffDepth g dirty pool (n + 1) p = some r
  | 0, p, r, h => by simp [diffDepth] at h
  | n + 1, p, r, h => by
    rw [diffDepth] at h ⊢
    refine appendAll_mono _ _ (fun grp _ r hr => ?_) h
    simp only [diffKey] at hr ⊢
    rcases h1 : appendAll (diffDepth g dirty pool n) (createdOf grp.2 (snapKids pool p grp.1)) with _ | a
    · simp [h1] at hr
    · rcases h2 : appendAll (diffDepth g dirty pool n) (remainOf grp.2 (snapKids pool p grp.1)) with _ | b
      · simp [h1, h2] at hr
      · rw [appendAll_mono _ _ (fun c _ r h => diff_mono n c r h) h1, appendAll_mono _ _ (fun c _ r h => diff_mono n c r h) h2]
        simpa [h1, h2] using hr

theorem diff_mono' {g : Objects N} {dirty : N → Bool} {pool : KidPool N} {n m : Nat} (hnm : n ≤ m) {p : N} {r : List (Change N)} (h : diffDepth g dirty pool n p = some r) : diffDepth g dirty pool m p = some r := by
  induction hnm with
  | refl => exact h
  | step _ ih => exact diff_mono _ _ _ ih

/-- the entities that `recursiveDelete` walks over -/
def targets (cs : List (Change N)) : List (N × N) := (cs.filter fun c => decide (c.ctype = .delete)).flatMap fun item => item.children.map fun c => (c, item.parent)

theorem mem_targets {cs : List (Change N)} {c p : N} : (c, p) ∈ targets cs ↔ ∃ item ∈ cs, item.ctype = .delete ∧ c ∈ item.children ∧ item.parent = p := by
  simp only [targets, List.mem_flatMap, List.mem_filter, List.mem_map, decide_eq_true_eq, Prod.mk.injEq]
  constructor
  · rintro ⟨i, ⟨h1, h2⟩, d, h3, rfl, rfl⟩; exact ⟨i, h1, h2, h3, rfl⟩
  · rintro ⟨i, h1, h2, h3, rfl⟩; exact ⟨i, ⟨h1, h2⟩, c, h3, rfl, rfl⟩

/-- the callback of `recursiveDelete` -/
def addKids (g : Objects N) (o2 : MapOrder N) (v : Visit N) (s : List (Change N)) : List (Change N) × Bool :=
  (s ++ (o2.ord v.entity (g.kids v.entity)).map fun grp => ⟨.delete, v.entity, grp.1, grp.2⟩, true)

theorem deleteDepth_def (g : Objects N) (o1 o2 : MapOrder N) (n : Nat) (cs : List (Change N)) :
    deleteDepth g o1 o2 n cs = (each (fun (p : N × N) s => walkDepth g o1 (addKids g o2) n p.1 (some p.2) s) (targets cs) cs).map Prod.fst := rfl

/-- **C113** Adding what is below deleted entities comes back exactly if one cannot go from child to child for ever from a deleted entity. -/
theorem C113_delete_iff (g : Objects N) (o1 o2 : MapOrder N) (cs : List (Change N)) :
    Returns (fun n => deleteDepth g o1 o2 n cs) ↔ ∀ item ∈ cs, item.ctype = .delete → ∀ c ∈ item.children, ¬ Endless g c := by
  simp only [Returns, deleteDepth_def, Option.isSome_map]
  constructor
  · rintro ⟨n, h⟩ item hi hd c hc
    obtain ⟨r, hr⟩ := Option.isSome_iff_exists.1 h
    obtain ⟨_, h2⟩ := each_all (fun c s a b hab => (walk_ok g o1 (f := addKids g o2) (fun _ _ => rfl) n c.1 _ s _ hab).1) _ _ _ hr
    obtain ⟨s', r', h3⟩ := h2 (c, item.parent) (mem_targets.2 ⟨item, hi, hd, hc, rfl⟩)
    exact not_endless.2 (walk_ok g o1 (f := addKids g o2) (fun _ _ => rfl) n c _ _ _ h3).2
  · intro h
    obtain ⟨n, r, hr⟩ := each_deep (st := fun n (p : N × N) s => walkDepth g o1 (addKids g o2) n p.1 (some p.2) s) (fun n c s r h => walk_mono g o1 _ n _ _ s r h) (targets cs) (by
      rintro ⟨c, p⟩ hc s
      obtain ⟨i, h1, h2, h3, rfl⟩ := mem_targets.1 hc
      exact walk_of_acc g o1 _ (not_endless.1 (h i h1 h2 c h3)) _ s) cs
    exact ⟨n, by simp [hr]⟩

theorem delete_mono (g : Objects N) (o1 o2 : MapOrder N) (cs : List (Change N)) {n : Nat} {r : List (Change N)} (h : deleteDepth g o1 o2 n cs = some r) : deleteDepth g o1 o2 (n + 1) cs = some r := by
  rw [deleteDepth_def] at h ⊢
  obtain ⟨⟨a, b⟩, h1, rfl⟩ := Option.map_eq_some_iff.1 h
  rw [each_mono (fun c s r h => walk_mono g o1 _ n _ _ s r h) _ _ _ h1]
  rfl

theorem delete_mono' (g : Objects N) (o1 o2 : MapOrder N) (cs : List (Change N)) {n m : Nat} (hnm : n ≤ m) {r : List (Change N)} (h : deleteDepth g o1 o2 n cs = some r) : deleteDepth g o1 o2 m cs = some r := by
  induction hnm with
  | refl => exact h
  | step _ ih => exact delete_mono _ _ _ _ ih

/-- **C113** Finding the changes never comes back when one can go from child to child for ever from the entities of the stage, whatever the snapshot says and whether or not the graph would be rejected. -/
theorem C113_changes_endless (g : Objects N) (o1 o2 : MapOrder N) (dirty : N → Bool) (pool : KidPool N) (recursive : Bool) {root : N} (h : Endless g root) (n : Nat) :
    changesDepth g o1 o2 dirty pool recursive n root = none := by
  have := mt (C113_diff_iff g dirty pool root).1 (not_not.2 h)
  simp only [Returns, not_exists, Bool.not_eq_true, Option.isSome_eq_false_iff, Option.isNone_iff_eq_none] at this
  simp only [changesDepth, this n]

/-- **C113** If one cannot, it comes back exactly if (with recursive deletion) there is no endless way down from an entity that was removed. -/
theorem C113_changes_iff (g : Objects N) (o1 o2 : MapOrder N) (dirty : N → Bool) (pool : KidPool N) (recursive : Bool) {root : N} {cs : List (Change N)} {m : Nat} (h : diffDepth g dirty pool m root = some cs) :
    Returns (fun n => changesDepth g o1 o2 dirty pool recursive n root) ↔
      (recursive = true → ∀ cs', handleEntityMove cs = some cs' → ∀ item ∈ cs', item.ctype = .delete → ∀ c ∈ item.children, ¬ Endless g c) := by
  have key : ∀ n r, diffDepth g dirty pool n root = some r → r = cs := by
    intro n r hr
    have a := diff_mono' (Nat.le_max_left n m) hr
    have b := diff_mono' (Nat.le_max_right n m) h
    rw [a] at b; exact Option.some.inj b
  rcases hm : handleEntityMove cs with _ | cs'
  · simp only [reduceCtorEq, false_imp_iff, implies_true, iff_true]
    exact ⟨m, by simp [changesDepth, h, hm]⟩
  · cases recursive with
    | false => simp only [Bool.false_eq_true, false_imp_iff, iff_true]; exact ⟨m, by simp [changesDepth, h, hm]⟩
    | true =>
      simp only [Option.some.injEq, forall_eq', true_imp_iff, ← C113_delete_iff g o1 o2 cs']
      constructor
      · rintro ⟨n, hn⟩
        rcases hd : diffDepth g dirty pool n root with _ | r
        · simp [changesDepth, hd] at hn
        · obtain rfl := key n r hd
          exact ⟨n, by simpa [changesDepth, hd, hm] using hn⟩
      · rintro ⟨n, hn⟩
        obtain ⟨r, hr⟩ := Option.isSome_iff_exists.1 hn
        exact ⟨max m n, by simp [changesDepth, diff_mono' (Nat.le_max_left m n) h, hm, delete_mono' g o1 o2 cs' (Nat.le_max_right m n) hr]⟩

/-! ## cycles -/

theorem acc_no_cycle {α : Type} {r : α → α → Prop} {a : α} (h : Acc r a) : ¬ r a a := by
  induction h with
  | intro a _ ih => exact fun h => ih a h h

theorem acc_below {g : Objects N} {e x : N} (h : Acc (fun c p => Child g p c) e) (hx : Relation.ReflTransGen (Child g) e x) : Acc (fun c p => Child g p c) x := by
  induction hx with
  | refl => exact h
  | tail _ hs ih => exact ih.inv hs

theorem acc_trans {g : Objects N} {e : N} (h : Acc (fun c p => Child g p c) e) : Acc (fun c p => Relation.TransGen (Child g) p c) e := by
  induction h with
  | intro e h1 ih =>
    refine .intro _ fun c hc => ?_
    obtain ⟨d, hd, hc'⟩ := Relation.TransGen.head'_iff.1 hc
    rcases Relation.reflTransGen_iff_eq_or_transGen.1 hc' with rfl | h
    · exact ih _ hd
    · exact (ih d hd).inv h

/-- **C113** Finitely many objects: there is an endless way down from `e` exactly if an entity at or below `e` is below itself. -/
theorem C113_cycle_iff (g : Objects N) (e : N) (all : List N) (hall : ∀ x, Relation.ReflTransGen (Child g) e x → x ∈ all) :
    Endless g e ↔ ∃ x, Relation.ReflTransGen (Child g) e x ∧ OnCycle g x := by
  constructor
  · rintro ⟨path, h0, hs⟩
    have reach : ∀ i, Relation.ReflTransGen (Child g) e (path i) := by
      intro i
      induction i with
      | zero => rw [h0]
      | succ i ih => exact ih.tail (hs i)
    have later : ∀ i d, Relation.TransGen (Child g) (path i) (path (i + 1 + d)) := by
      intro i d
      induction d with
      | zero => exact .single (hs i)
      | succ d ih => exact ih.tail (hs _)
    obtain ⟨i, j, hij, he⟩ := Finite.exists_ne_map_eq_of_infinite (fun i => (⟨path i, hall _ (reach i)⟩ : { x // x ∈ all }))
    have he' : path i = path j := congrArg Subtype.val he
    rcases Nat.lt_or_gt_of_ne hij with h | h
    · refine ⟨path i, reach i, ?_⟩
      have := later i (j - i - 1)
      rw [show i + 1 + (j - i - 1) = j by omega, ← he'] at this
      exact this
    · refine ⟨path j, reach j, ?_⟩
      have := later j (i - j - 1)
      rw [show j + 1 + (i - j - 1) = i by omega, he'] at this
      exact this
  · rintro ⟨x, hx, hc⟩
    by_contra hn
    exact acc_no_cycle (acc_trans (acc_below (not_endless.1 hn) hx)) hc

open Children in
/-- **C113** (an exported field pointing back is enough) If an entity has another one in an exported entity field, slice or map, and that one has the first in one, no function of the engine that goes through the entities comes back. -/
theorem C113_back_pointer {objs : N → Obj N} (g : Objects N) (hg : ∀ n, findChildren (objs n) = some (g.kids n)) {a b : N} {fa fb : List (Field N)}
    (ha : (objs a).own = none) (ha' : (objs a).fields = some fa) (hla : Layout fa) (hb : (objs b).own = none) (hb' : (objs b).fields = some fb) (hlb : Layout fb)
    {x y : Field N} (hx : x ∈ fa) (hxe : x.exported = true) (hxt : x.ty.holds) (hxv : some b ∈ x.val.entities)
    (hy : y ∈ fb) (hye : y.exported = true) (hyt : y.ty.holds) (hyv : some a ∈ y.val.entities)
    (o1 o2 : MapOrder N) (dirty : N → Bool) (pool : KidPool N) (recursive : Bool) {root : N} (hroot : Relation.ReflTransGen (Child g) root a) (n : Nat) :
    changesDepth g o1 o2 dirty pool recursive n root = none := by
  have child : ∀ {p c : N} {fs : List (Field N)} {f : Field N}, (objs p).own = none → (objs p).fields = some fs → Layout fs → f ∈ fs → f.exported = true → f.ty.holds → some c ∈ f.val.entities → Child g p c := by
    intro p c fs f h0 h1 hl hf he ht hc
    have hnb : ¬ f.bad := fun hb => by
      have := (C59_panics_iff _ fs h0 h1 hl).2 ⟨f, hf, hb⟩
      rw [hg p] at this; cases this
    obtain ⟨l, hl'⟩ := entities_some f hnb he ht
    refine ⟨f.name, l, (C59_groups _ fs h0 h1 hl _ (hg p) _ _).2 ⟨f, hf, he, ht, rfl, hl'⟩, ?_⟩
    rw [hl'] at hc
    simpa using hc
  have hab := child ha ha' hla hx hxe hxt hxv
  have hba := child hb hb' hlb hy hye hyt hyv
  apply C113_changes_endless
  by_contra hn
  exact acc_no_cycle (acc_trans (acc_below (not_endless.1 hn) hroot)) (.head hab (.single hba))

/-! ## the model of the other claims is exactly the rest -/

/-- **C113** The graphs of the other claims (`Graph`) are exactly those on which walking always comes back. -/
theorem C113_graph_iff (g : Objects N) (hk : ∀ p, ((g.kids p).map Prod.fst).Nodup) : (∃ G : Graph N, G.kids = g.kids) ↔ ∀ e, ¬ Endless g e := by
  constructor
  · rintro ⟨G, hG⟩ e ⟨path, h0, hs⟩
    have h : ∀ i, G.height (path i) + i ≤ G.height e := by
      intro i
      induction i with
      | zero => simp [h0]
      | succ i ih =>
        obtain ⟨k, cs, h1, h2⟩ := hs i
        have := G.wf (hG ▸ h1) h2
        omega
    have := h (G.height e + 1)
    omega
  · intro h
    classical
    have ex : ∀ e, ∃ n, (diffDepth g (fun _ => false) (fun _ => none) n e).isSome := fun e => (C113_diff_iff g _ _ e).2 (h e)
    refine ⟨⟨g.kids, fun e => Nat.find (ex e), ?_, hk⟩, rfl⟩
    intro p k cs c hc hcs
    have h1 := Nat.find_spec (ex p)
    rcases hn : Nat.find (ex p) with _ | n
    · rw [hn] at h1; simp [diffDepth] at h1
    · rw [hn] at h1
      have := diff_succ.1 (Option.isSome_iff_exists.1 h1) c ⟨k, cs, hc, hcs⟩
      exact Nat.lt_succ_of_le (Nat.find_min' (ex c) (Option.isSome_iff_exists.2 this))

/-- a graph of the other claims as objects -/
def ofGraph (G : Graph N) : Objects N := ⟨G.kids⟩

theorem each_flat {α β : Type} {st : α → List β → Option (List β × Bool)} {f : α → List β} : ∀ (l : List α), (∀ c ∈ l, ∀ s, st c s = some (s ++ f c, true)) → ∀ s, each st l s = some (s ++ l.flatMap f, true)
  | [], _, s => by simp [each]
  | c :: cs, h, s => by
    simp only [each, h c (by simp), each_flat cs (fun d hd => h d (by simp [hd])), List.flatMap_cons, List.append_assoc]

theorem walk_same (G : Graph N) (o : MapOrder N) {β : Type} (out : Visit N → List β) : ∀ n e, G.height e < n → ∀ par s,
    walkDepth (ofGraph G) o (fun v s => (s ++ out v, true)) n e par s = some (s ++ (walk G o e par).flatMap out, true) := by
  intro n
  induction n with
  | zero => intro e h; omega
  | succ n ih =>
    intro e he par s
    rw [walkDepth, walk_eq]
    simp only
    rw [each_flat (f := fun c => (walk G o c (some e)).flatMap out)]
    · simp only [ofGraph, List.flatMap_cons, List.append_assoc, List.flatMap_assoc]
    · intro c hc s
      obtain ⟨k, cs, h1, h2⟩ := mem_kids.1 hc
      have := G.wf h1 h2
      exact ih c (by omega) _ _

theorem diff_same (G : Graph N) (dirty : N → Bool) (pool : KidPool N) : ∀ n p, G.height p < n → diffDepth (ofGraph G) dirty pool n p = some (entityDiff G dirty pool p) := by
  intro n
  induction n with
  | zero => intro p h; omega
  | succ n ih =>
    intro p hp
    rw [diffDepth, entityDiff_eq]
    rw [appendAll_eq (f := fun grp => mkChange .new p grp.1 (createdOf grp.2 (snapKids pool p grp.1))
        ++ ((createdOf grp.2 (snapKids pool p grp.1)).flatMap fun c => entityDiff G dirty pool c)
        ++ mkChange .dirty p grp.1 ((remainOf grp.2 (snapKids pool p grp.1)).filter dirty)
        ++ ((remainOf grp.2 (snapKids pool p grp.1)).flatMap fun c => entityDiff G dirty pool c)
        ++ mkChange .delete p grp.1 (deletedOf grp.2 (snapKids pool p grp.1)))]
    · rfl
    · rintro ⟨k, cs⟩ hg
      have hg' : (k, cs) ∈ G.kids p := (List.mem_insertionSort _).1 hg
      have lt : ∀ c ∈ cs, G.height c < n := fun c hc => by have := G.wf hg' hc; omega
      simp only [diffKey]
      rw [appendAll_eq (f := fun c => entityDiff G dirty pool c) _ fun c hc => ih c (lt c (mem_createdOf.1 hc).1),
        appendAll_eq (f := fun c => entityDiff G dirty pool c) _ fun c hc => ih c (lt c (mem_remainOf.1 hc).1)]

/-- **C113** On those graphs the functions here give what the functions of the other claims give. -/
theorem C113_same (G : Graph N) (o1 o2 : MapOrder N) (dirty : N → Bool) (pool : KidPool N) (recursive : Bool) (root : N) :
    ∃ n, changesDepth (ofGraph G) o1 o2 dirty pool recursive n root = some ((handleEntityMove (entityDiff G dirty pool root)).map fun cs => if recursive then recursiveDelete G o1 o2 cs else cs) := by
  rcases hm : handleEntityMove (entityDiff G dirty pool root) with _ | cs
  · exact ⟨G.height root + 1, by simp [changesDepth, diff_same G dirty pool _ root (Nat.lt_succ_self _), hm]⟩
  · obtain ⟨n, hn⟩ := bound (P := fun n (p : N × N) => G.height p.1 < n) (fun n m a h h' => by omega) (targets cs) fun a _ => ⟨_, Nat.lt_succ_self _⟩
    refine ⟨max n (G.height root + 1), ?_⟩
    simp only [changesDepth, diff_same G dirty pool _ root (show G.height root < max n (G.height root + 1) by omega), hm, Option.map_some]
    cases recursive with
    | false => rfl
    | true =>
      simp only [if_true, deleteDepth_def]
      have : each (fun (p : N × N) s => walkDepth (ofGraph G) o1 (addKids (ofGraph G) o2) (max n (G.height root + 1)) p.1 (some p.2) s) (targets cs) cs = some (recursiveDelete G o1 o2 cs, true) := by
        rw [each_flat (f := fun p : N × N => (walk G o1 p.1 (some p.2)).flatMap fun v => (o2.ord v.entity (G.kids v.entity)).map fun grp => (⟨.delete, v.entity, grp.1, grp.2⟩ : Change N))]
        · congr 2
          simp only [recursiveDelete, targets, List.flatMap_assoc, List.flatMap_map]
        · intro p hp s
          exact walk_same G o1 (fun v => (o2.ord v.entity (G.kids v.entity)).map fun grp => (⟨.delete, v.entity, grp.1, grp.2⟩ : Change N)) (max n (G.height root + 1)) p.1 (by have := hn p hp; omega) _ s
      rw [this]
      rfl

/-! ## examples -/

/-- an order 1 with the lines 2 and 3; `back`: the lines have an exported field for their order -/
def order (back : Bool) (n : Nat) : Children.Obj Nat :=
  let line : Children.Field Nat := ⟨0, back, ⟨true, false, .ref⟩, .ent 1⟩
  if n = 1 then ⟨none, some [⟨0, true, ⟨false, false, .slice true⟩, .elems [some 2, some 3]⟩]⟩
  else if n = 2 ∨ n = 3 then ⟨none, some [line]⟩ else ⟨none, some []⟩

def orders (back : Bool) : Objects Nat := ⟨fun n => (Children.findChildren (order back n)).getD []⟩

def fixed : MapOrder Nat := ⟨fun _ l => l, fun _ _ => .refl _⟩

/-- hypotheses of `C113_back_pointer`: with the exported field, nothing comes back -/
example (n : Nat) : changesDepth (orders true) fixed fixed (fun _ => false) (fun _ => none) false n 1 = none := by
  have hg : ∀ n, Children.findChildren (order true n) = some ((orders true).kids n) := by
    intro n
    by_cases h1 : n = 1
    · subst h1; rfl
    · by_cases h2 : n = 2 ∨ n = 3
      · simp [orders, order, h1, h2, Children.findChildren, Children.collect, Children.fieldGroup]
      · simp [orders, order, h1, h2, Children.findChildren, Children.collect]
  refine C113_back_pointer (objs := order true) (orders true) hg (a := 1) (b := 2) rfl rfl ⟨by decide, ?_⟩ rfl rfl ⟨by decide, ?_⟩ (List.mem_singleton.2 rfl) rfl (.inr (.inl rfl)) ?_ (List.mem_singleton.2 rfl) rfl (.inl ⟨rfl, rfl⟩) ?_ _ _ _ _ _ .refl n
  · intro f hf; obtain rfl := List.mem_singleton.1 hf; simp [Children.Fits]
  · intro f hf; obtain rfl := List.mem_singleton.1 hf; simp [Children.Fits]
  · simp [Children.Val.entities]
  · simp [Children.Val.entities]

/-- without it (the field is not exported), two calls deep is enough and the new lines are found -/
example : (diffDepth (orders false) (fun _ => false) (fun _ => none) 2 1).map (fun cs => cs.map fun c => (c.ctype, c.parent, c.children)) = some [(.new, 1, [2, 3])] := by decide +kernel

end Ddd.Depth
