import Verif.Spec.Snapshot
import Verif.Proofs.Program
import Verif.Proofs.Save
/-! What `updateSnapshot` and `flush` record. -/
set_option linter.unusedVariables false
set_option linter.unusedSimpArgs false
namespace Ddd
open Spec

variable {env : Env} {opts : Opts}

theorem swappedIs_iff (e : Err) : e.swappedIs .notRegister = true ↔ e = .sent .notRegister := by
  cases e <;> simp [Err.swappedIs]

theorem snapshotVisit_ok {v : Visit Node} {s s' : St} (h : snapshotVisit env v s = (.ok (), s')) :
    ((∃ sn, s.snap v.entity = some sn) ∧ v.entity ≠ none ∧ s' = s) ∨
    ((s.snap v.entity = none ∨ v.entity = none) ∧ ∃ sn tr, Faithful env s.heap s.graph.kids v.entity sn ∧
      s' = { s with snap := fun n => if n = v.entity then some sn else s.snap n, trace := tr }) := by
  unfold snapshotVisit at h
  split at h
  · next sn p h1 h2 =>
    simp only [Prod.mk.injEq, true_and] at h
    exact .inl ⟨⟨sn, h1⟩, by rw [h2]; simp, h.symm⟩
  · next hne =>
    right
    refine ⟨?_, ?_⟩
    · cases h1 : s.snap v.entity with
      | none => exact .inl rfl
      | some sn =>
        cases h2 : v.entity with
        | none => exact .inr rfl
        | some p => exact absurd h2 (hne sn p h1)
    · unfold convert at h
      dsimp only at h
      cases hc : env.conv s.trace s.heap v.entity v.parent .query with
      | panic => rw [hc] at h; simp at h
      | err e =>
        rw [hc] at h
        dsimp only at h
        split at h
        · next he =>
          simp only [Prod.mk.injEq, true_and] at h
          rw [swappedIs_iff] at he
          subst he
          exact ⟨_, _, ⟨rfl, s.trace, v.parent, .inr ⟨hc, rfl⟩⟩, h.symm⟩
        · simp at h
      | ok m =>
        rw [hc] at h
        simp only [Prod.mk.injEq, true_and] at h
        exact ⟨_, _, ⟨rfl, s.trace, v.parent, .inl ⟨m, hc, rfl⟩⟩, h.symm⟩

theorem recordAll_ok {l : List (Visit Node)} {s s' : St} (h : M.forEach l (snapshotVisit env) s = (.ok (), s')) :
    s' = { s with snap := s'.snap, trace := s'.trace } ∧
    (∀ n, n ∈ l.map Visit.entity → (n = none ∨ s.snap n = none) → ∃ sn, s'.snap n = some sn ∧ Faithful env s.heap s.graph.kids n sn) ∧
    (∀ n, n ∉ l.map Visit.entity → s'.snap n = s.snap n) ∧ (∀ n sn, n ≠ none → s.snap n = some sn → s'.snap n = some sn) := by
  induction l generalizing s with
  | nil =>
    simp only [M.forEach, M.pure, Prod.mk.injEq, true_and] at h
    subst h
    exact ⟨rfl, by simp, by simp, fun n sn _ h => h⟩
  | cons v l ih =>
    simp only [M.forEach] at h
    obtain ⟨_, s1, h1, h2⟩ := bind_ok h
    obtain ⟨i1, i2, i3, i4⟩ := ih h2
    rcases snapshotVisit_ok h1 with ⟨⟨sn, hs⟩, hne, rfl⟩ | ⟨hnew, sn, tr, hf, rfl⟩
    · refine ⟨i1, ?_, ?_, i4⟩
      · intro n hn ho
        rcases List.mem_cons.1 hn with rfl | hn
        · rcases ho with ho | ho
          · exact absurd ho hne
          · rw [hs] at ho; simp at ho
        · exact i2 n hn ho
      · intro n hn
        exact i3 n (fun hm => hn (List.mem_cons_of_mem _ hm))
    · have hg : (St.graph { s with snap := fun n => if n = v.entity then some sn else s.snap n, trace := tr }) = s.graph := rfl
      rw [hg] at i2
      simp only at i2
      refine ⟨by rw [i1], ?_, ?_, ?_⟩
      · intro n hn ho
        by_cases hv : n = v.entity
        · subst hv
          by_cases hv0 : v.entity = none
          · by_cases hl : v.entity ∈ l.map Visit.entity
            · exact i2 _ hl (.inl hv0)
            · exact ⟨sn, by rw [i3 _ hl]; simp, hf⟩
          · exact ⟨sn, i4 _ sn hv0 (by simp), hf⟩
        · have hl : n ∈ l.map Visit.entity := by
            rcases List.mem_cons.1 hn with h | h
            · exact absurd h hv
            · exact h
          refine i2 n hl ?_
          rcases ho with ho | ho
          · exact .inl ho
          · right; simp [hv, ho]
      · intro n hn
        have hv : n ≠ v.entity := fun h => hn (by rw [h]; simp)
        rw [i3 n fun hm => hn (List.mem_cons_of_mem _ hm)]
        simp [hv]
      · intro n sn' hne hs
        refine i4 n sn' hne ?_
        have hv : n ≠ v.entity := by
          rintro rfl
          rcases hnew with h | h
          · rw [hs] at h; simp at h
          · exact hne h
        simp [hv, hs]

/-- what a successful `updateSnapshot` records. -/
theorem updateSnapshot_ok {s s' : St} (h : updateSnapshot env s = (.ok (), s')) :
    s' = { s with snap := s'.snap, trace := s'.trace } ∧
    (∀ n, Reach s.graph.kids none n → (n = none ∨ s.snap n = none) → ∃ sn, s'.snap n = some sn ∧ Faithful env s.heap s.graph.kids n sn) ∧
    (∀ n, ¬ Reach s.graph.kids none n → s'.snap n = s.snap n) ∧ (∀ n sn, n ≠ none → s.snap n = some sn → s'.snap n = some sn) := by
  obtain ⟨h1, h2, h3, h4⟩ := recordAll_ok h
  refine ⟨h1, ?_, ?_, h4⟩
  · intro n hn; exact h2 n ((mem_walk_entity _ _ _ _ _).2 hn)
  · intro n hn; exact h3 n (fun hm => hn ((mem_walk_entity _ _ _ _ _).1 hm))

/-- everything in the aggregate is recorded after a successful `updateSnapshot`. -/
theorem updateSnapshot_all {s s' : St} (h : updateSnapshot env s = (.ok (), s')) {n : Node} (hn : Reach s.graph.kids none n) :
    (s'.snap n).isSome = true := by
  obtain ⟨h1, h2, h3, h4⟩ := updateSnapshot_ok h
  by_cases ho : n = none ∨ s.snap n = none
  · obtain ⟨sn, hs, _⟩ := h2 n hn ho; rw [hs]; rfl
  · simp only [not_or] at ho
    cases hs : s.snap n with
    | none => exact absurd hs ho.2
    | some sn => rw [h4 n sn ho.1 hs]; rfl

/-- what a successful `flush` records: exactly the aggregate as it is. -/
theorem flush_ok {s s' : St} (h : flush env s = (.ok (), s')) :
    s' = { s with snap := s'.snap, trace := s'.trace } ∧
    (∀ n, Reach s.graph.kids none n → ∃ sn, s'.snap n = some sn ∧ Faithful env s.heap s.graph.kids n sn) ∧
    (∀ n, ¬ Reach s.graph.kids none n → s'.snap n = none) := by
  obtain ⟨h1, h2, h3, _⟩ := updateSnapshot_ok (s := { s with snap := fun _ => none }) h
  exact ⟨h1, fun n hn => h2 n hn (.inr rfl), h3⟩

theorem setDirty_graph (h : Heap) (rs : List Ptr) (p : Ptr) (f : Attr → Attr) : (stageGraph (h.setAttr p f) rs).kids = (stageGraph h rs).kids := rfl

/-- `unDirty` never fails; it clears the mark of the whole aggregate and changes nothing else. -/
theorem unDirty_effect (s : St) : ∃ h', unDirty env s = (.ok (), { s with heap := h' }) ∧ h'.kids = s.heap.kids ∧ h'.height = s.heap.height ∧
    (∀ p, Reach s.graph.kids none (some p) → h'.attr p = { s.heap.attr p with dirty := false }) ∧
    (∀ p, ¬ Reach s.graph.kids none (some p) → h'.attr p = s.heap.attr p) := by
  unfold unDirty
  have key : ∀ (l : List (Visit Node)) (s : St), ∃ h', M.forEach l (fun v => M.modify fun s => match v.entity with
      | none => s
      | some p => { s with heap := s.heap.setAttr p fun a => { a with dirty := false } }) s = (.ok (), { s with heap := h' }) ∧
      h'.kids = s.heap.kids ∧ h'.height = s.heap.height ∧
      ∀ p, h'.attr p = { s.heap.attr p with dirty := if some p ∈ l.map Visit.entity then false else (s.heap.attr p).dirty } := by
    intro l
    induction l with
    | nil => intro s; exact ⟨s.heap, rfl, rfl, rfl, by simp⟩
    | cons v l ih =>
      intro s
      simp only [M.forEach, M.bind, M.modify]
      cases hv : v.entity with
      | none =>
        obtain ⟨h', e1, e2, e3, e4⟩ := ih s
        refine ⟨h', e1, e2, e3, ?_⟩
        intro p; rw [e4]; simp [hv]
      | some q =>
        obtain ⟨h', e1, e2, e3, e4⟩ := ih { s with heap := s.heap.setAttr q fun a => { a with dirty := false } }
        refine ⟨h', e1, e2, e3, ?_⟩
        intro p
        rw [e4]
        by_cases hp : p = q
        · subst hp; simp [Heap.setAttr, hv]
        · simp [Heap.setAttr, hp, hv]
  obtain ⟨h', e1, e2, e3, e4⟩ := key (walk s.graph (env.ord s.trace 2) none none) s
  refine ⟨h', e1, e2, e3, ?_, ?_⟩
  · intro p hp
    rw [e4, if_pos ((mem_walk_entity _ _ _ _ _).2 hp)]
  · intro p hp
    rw [e4, if_neg (fun h => hp ((mem_walk_entity _ _ _ _ _).1 h))]

/-- a successful save, part by part. -/
theorem commitSave_ok {s s' : St} (h : commitSave env opts s = (.ok (), s')) :
    ∃ s1 s2, persist env opts s = (.ok (), s1) ∧ flush env s1 = (.ok (), s2) ∧ unDirty env s2 = (.ok (), s') := by
  have he : commitSave env opts = M.bind (persist env opts) fun _ => M.bind (flush env) fun _ => unDirty env := by
    unfold commitSave; with_unfolding_all rfl
  rw [he] at h
  obtain ⟨_, s1, h1, h2⟩ := bind_ok h
  obtain ⟨_, s2, h3, h4⟩ := bind_ok h2
  exact ⟨s1, s2, h1, h3, h4⟩

/-- nothing to save. -/
theorem persist_nothing {s : St} (hk : ∀ n, Reach s.graph.kids none n → ∃ sn, s.snap n = some sn ∧ sn.kids = s.graph.kids n)
    (hd : ∀ n, Reach s.graph.kids none n → s.heap.dirtyNode n = false) : persist env opts s = (.ok (), s) := by
  have hdiff : entityDiff s.graph s.heap.dirtyNode s.kidPool none = [] := by
    rw [List.eq_nil_iff_forall_not_mem]
    intro ch hch
    obtain ⟨hne, _⟩ := entityDiff_children _ _ _ s.kidPool_keys none ch hch
    obtain ⟨c, hc⟩ := List.exists_mem_of_ne_nil _ hne
    obtain ⟨hr, hat⟩ := (entityDiff_char _ _ _ s.kidPool_keys none ch.ctype ch.parent ch.key c).1 ⟨ch, hch, rfl, rfl, rfl, hc⟩
    obtain ⟨sn, hs, hkk⟩ := hk _ hr
    have hhad : ∀ k c, Had s.kidPool ch.parent k c ↔ Has s.graph.kids ch.parent k c := by
      intro k c
      unfold Had Has St.kidPool
      constructor
      · rintro ⟨f, cs, h1, h2, h3⟩
        rw [hs] at h1
        simp only [Option.map_some, Option.some.injEq] at h1
        rw [← h1, hkk] at h2
        exact ⟨cs, h2, h3⟩
      · rintro ⟨cs, h1, h2⟩
        exact ⟨sn.kids, cs, by simp [hs], by rw [hkk]; exact h1, h2⟩
    unfold DiffAt at hat
    split at hat
    · exact hat.2 ((hhad _ _).2 hat.1)
    · have := hd c (.step hr ⟨_, hat.1⟩)
      rw [hat.2.2] at this; simp at this
    · exact hat.2.2 ((hhad _ _).1 hat.1)
    · exact hat
  have hcs : entityChanges env opts s = some [] := by
    unfold entityChanges
    rw [hdiff]
    cases opts.recursiveDelete <;> rfl
  rw [persist_eq]
  unfold M.bind getEntityChanged
  rw [hcs]
  simp only [runHooks, putNewID, makeActions, actLoops, M.forEach, M.pure, M.bind, ActAcc.actions, collectOp, recycle, M.modify]
  unfold exec
  cases opts.dryRun <;> simp [M.forEach, M.pure, M.bind, M.modify, collectOp]

end Ddd
