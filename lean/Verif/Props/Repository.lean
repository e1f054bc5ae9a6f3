import Verif.Props.Misuse
import Verif.Props.Snapshots
import Verif.Props.CommandDemo
import Verif.Spec.Repository
/-!
# C65, C66: what is added is inserted, what is removed is deleted
-/
set_option linter.unusedVariables false
namespace Ddd
open Spec

variable {env : Env} {opts : Opts} {h : Heap}

theorem had_tracked {s : St} (hc : Closed s.snap) {p n : Node} {k : Key} (hh : Had s.kidPool p k n) : (s.snap n).isSome = true := by
  obtain ⟨fs, cs, h1, h2, h3⟩ := hh
  unfold St.kidPool at h1
  rw [Option.map_eq_some_iff] at h1
  obtain ⟨sn, h4, rfl⟩ := h1
  exact hc p sn k cs n h4 h2 h3

theorem inserted_of_closed {s s' : St} (hc : Closed s.snap) (hp : persist env opts s = (.ok (), s')) :
    ∃ t, s'.trace = s.trace ++ t ∧ ∀ par q, Reach s.now none par → Child s.now par q → s.snap q = none → (⟨q, par, .insert⟩ : Job) ∈ asked t := by
  obtain ⟨cs, t, hcs, ht, ha⟩ := save_calls env opts hp
  refine ⟨t, ht, ?_⟩
  intro par q hr ⟨k, hk⟩ hq
  rw [ha, changes_jobs env opts hcs .insert par q]
  have hno : ∀ p k, ¬ Had s.kidPool p k q := by
    intro p k hh
    have := had_tracked hc hh
    rw [hq] at this; cases this
  exact ⟨⟨k, hr, hk, hno _ _⟩, fun ⟨p', k', hg⟩ => hno _ _ hg.2.2.1⟩

/-- **C65** At every point user code comes to: a successful save inserts every entity of the aggregate that has not been loaded or saved before, below every parent it has. -/
theorem C65_untracked_inserted (hl : LoadsModels env) {main p : Prog} {keys : List Nat} {s s' : St}
    (hv : Visits env opts main (atStart opts keys (.fresh h)) p s) (hp : persist env opts s = (.ok (), s')) :
    ∃ t, s'.trace = s.trace ++ t ∧ ∀ par q, Reach s.now none par → Child s.now par q → s.snap q = none → (⟨q, par, .insert⟩ : Job) ∈ asked t :=
  inserted_of_closed (closed_visits hl hv closed_empty) hp

theorem calm_snap {p p' : Prog} {s s' : St} (hc : Calm p s) (hn : Next env opts p s p' s') : s'.snap = s.snap := by
  cases hn with
  | mutate => rfl
  | look => rfl
  | output => rfl
  | get => exact hc.elim
  | customGet => exact hc.elim
  | add h => exact repoAdd_snap' h
  | @remove rs k _ _ h =>
    unfold repoRemove at h
    have he : (rs.filter fun r => decide (r ∉ s.roots)).isEmpty = true := by
      rw [List.isEmpty_iff, List.filter_eq_nil_iff]
      intro r hr; simp [hc r hr]
    simp only [he, if_true] at h
    exact repoRemoveLoop_snap' h
  | save => exact hc.elim
  | commit => exact hc.elim
  | @build r k _ _ e hb =>
    unfold M.attempt buildEntity at hb
    by_cases h0 : (s.heap.attr r).id = 0
    · simp only [h0, if_true, Prod.mk.injEq] at hb
      rw [← hb.2]
    · simp only [h0, if_false, M.extH] at hb
      cases hq : (env.query s.trace s.heap r).2 <;> rw [hq] at hb <;> simp at hb <;> rw [← hb.2] <;> rfl
  | enter => exact hc.elim
  | @cAdd r k _ _ e hb =>
    unfold M.attempt containerAdd at hb
    by_cases h0 : r ∈ s.roots <;> simp [h0] at hb <;> rw [← hb.2]
  | @cRemove r k _ _ e hb =>
    unfold M.attempt containerRemove at hb
    by_cases h0 : r ∈ s.roots <;> simp [h0] at hb <;> rw [← hb.2]

theorem quiet_snap {p p' : Prog} {s s' : St} (hq : NoLoad env opts p s p' s') : s'.snap = s.snap := by
  induction hq with
  | here => rfl
  | step hc hn _ ih => rw [ih, calm_snap hc hn]

theorem quiet_visits {p p' : Prog} {s s' : St} (hq : NoLoad env opts p s p' s') : Visits env opts p s p' s' := by
  induction hq with
  | here => exact .here _ _
  | step _ hn _ ih => exact .step hn ih

/-- **C65** (as long as nothing is loaded in between) Roots added through `Repository.Add` without misuse, and every entity below them that was not tracked then, are inserted by the next successful save;
user code may edit its objects, add further roots and remove roots the repository holds in between. Missing for the full property: loads between `Add` and the save (`C65_add_then_get_lost`, `C65_add_then_remove_lost`, `C65_new_grandchild_lost`). -/
theorem C65_add_inserted_partial (hl : LoadsModels env) {main k p2 : Prog} {keys : List Nat} {rs : List Ptr} {s s1 s2 s' : St}
    (hv : Visits env opts main (atStart opts keys (.fresh h)) (.add rs k) s) (hm : ¬ AddMisuse rs s) (hn : Next env opts (.add rs k) s k s1)
    (hq : NoLoad env opts k s1 p2 s2) (hp : persist env opts s2 = (.ok (), s')) :
    ∃ t, s'.trace = s2.trace ++ t ∧ ∀ r ∈ rs, r ∈ s2.roots → (⟨some r, none, .insert⟩ : Job) ∈ asked t ∧
      ∀ par q, Reach s2.now (some r) par → Child s2.now par q → s.snap q = none → (⟨q, par, .insert⟩ : Job) ∈ asked t := by
  have hv2 : Visits env opts main (atStart opts keys (.fresh h)) p2 s2 := hv.trans (.step hn (quiet_visits hq))
  obtain ⟨t, ht, hi⟩ := C65_untracked_inserted hl hv2 hp
  have hs1 : s1.snap = s.snap := by cases hn with | add h => exact repoAdd_snap' h
  have hs2 : s2.snap = s.snap := by rw [quiet_snap hq, hs1]
  refine ⟨t, ht, ?_⟩
  intro r hr hroot
  have hch : Child s2.now none (some r) := ⟨0, s2.roots.map some, by simp [St.now, St.graph, stageGraph], by simp [hroot]⟩
  refine ⟨hi none (some r) .root hch ?_, ?_⟩
  · rw [hs2]
    cases hsn : s.snap (some r) with
    | none => rfl
    | some sn => exact absurd (.inl ⟨r, hr, .inl (by simp [hsn])⟩) hm
  · intro par q hreach hcq hsq
    refine hi par q ?_ hcq (by rw [hs2]; exact hsq)
    have h0 : Reach s2.now none (some r) := .step .root hch
    clear hcq hsq
    induction hreach with
    | root => exact h0
    | step _ hc ih => exact .step ih hc

/-- without misuse, `Add` puts the roots into the repository -/
theorem C65_add_in_repository {k : Prog} {rs : List Ptr} {s s1 : St} (hm : ¬ AddMisuse rs s) (hn : Next env opts (.add rs k) s k s1) :
    s1.roots = s.roots ++ rs ∧ s1.errs = s.errs ∧ s1.heap = s.heap := by
  cases hn with
  | add h =>
    rw [(repoAdd_effect rs s).1 hm] at h
    simp only [Prod.mk.injEq, true_and] at h
    rw [← h]; exact ⟨rfl, rfl, rfl⟩

/-! ## C66 -/

theorem has_root {s : St} {r : Ptr} : Has s.now none 0 (some r) ↔ r ∈ s.roots := by
  constructor
  · rintro ⟨cs, h1, h2⟩
    have h1 : ((0 : Key), cs) ∈ [((0 : Key), s.roots.map some)] := h1
    simp only [List.mem_cons, List.not_mem_nil, or_false, Prod.mk.injEq, true_and] at h1
    subst h1
    simpa using h2
  · intro hr
    exact ⟨s.roots.map some, by simp [St.now, St.graph, stageGraph], by simp [hr]⟩

/-- a successful snapshot records all roots below the container -/
theorem updateSnapshot_roots {s s' : St} (hu : updateSnapshot env s = (.ok (), s')) : s'.roots = s.roots ∧ ∀ r ∈ s.roots, Had s'.kidPool none 0 (some r) := by
  obtain ⟨h1, h2, _, _⟩ := updateSnapshot_ok hu
  refine ⟨by rw [h1], ?_⟩
  intro r hr
  obtain ⟨sn, hs, hf⟩ := h2 none .root (.inl rfl)
  refine ⟨sn.kids, s.roots.map some, by simp [St.kidPool, hs], ?_, by simp [hr]⟩
  rw [hf.1]
  simp [St.graph, stageGraph]

theorem flush_roots {s s' : St} (hu : flush env s = (.ok (), s')) : s'.roots = s.roots ∧ ∀ r ∈ s.roots, Had s'.kidPool none 0 (some r) :=
  updateSnapshot_roots (s := { s with snap := fun _ => none }) hu

/-- what `Repository.Remove` does without misuse -/
theorem repoRemove_effect {rs : List Ptr} {s s' : St} (hl : LoadsModels env) (hm : ¬ RemoveMisuse rs s) (hr : repoRemove env rs s = (.ok (), s')) :
    s'.roots = s.roots.filter (fun x => decide (x ∉ rs)) ∧ s'.errs = s.errs ∧ s'.heap = s.heap ∧
    ((∀ r ∈ rs, r ∈ s.roots) → s'.snap = s.snap) ∧ ((∃ r ∈ rs, r ∉ s.roots) → ∀ r, r ∈ s.roots ∨ r ∈ rs → Had s'.kidPool none 0 (some r)) := by
  have hnd : rs.Nodup := by by_contra hc; exact hm (.inr hc)
  unfold repoRemove at hr
  dsimp only at hr
  by_cases hall : (rs.filter fun r => decide (r ∉ s.roots)).isEmpty = true
  · rw [if_pos hall] at hr
    have hroots : ∀ r ∈ rs, r ∈ s.roots := by
      intro r hr'
      by_contra hc
      have : r ∈ rs.filter fun r => decide (r ∉ s.roots) := by simp [hr', hc]
      rw [List.isEmpty_iff.1 hall] at this; simp at this
    rw [(repoRemoveLoop_effect rs s).1 ⟨hroots, hnd⟩] at hr
    simp only [Prod.mk.injEq, true_and] at hr
    subst hr
    exact ⟨rfl, rfl, rfl, fun _ => rfl, fun ⟨r, h1, h2⟩ => absurd (hroots r h1) h2⟩
  · rw [if_neg hall] at hr
    have hna : ¬ AddMisuse (rs.filter fun r => decide (r ∉ s.roots)) s := by
      rintro (⟨r, h1, h2⟩ | h1)
      · simp only [List.mem_filter, decide_eq_true_eq] at h1
        rcases h2 with h2 | h2
        · exact hm (.inl ⟨r, h1.1, h2, h1.2⟩)
        · exact h1.2 h2
      · exact h1 (hnd.filter _)
    rw [(repoAdd_effect _ s).1 hna] at hr
    dsimp only at hr
    generalize hs1 : ({ s with roots := s.roots ++ rs.filter fun r => decide (r ∉ s.roots) } : St) = s1 at hr
    cases hu : updateSnapshot env s1 with
    | mk r s2 =>
      rw [hu] at hr
      cases r with
      | panic => simp at hr
      | err e => exact absurd hu (updateSnapshot_noerr hl s1 s2 e)
      | ok _ =>
        dsimp only at hr
        obtain ⟨u1, u2⟩ := updateSnapshot_roots hu
        obtain ⟨f1, _⟩ := updateSnapshot_ok hu
        have hr1 : s1.roots = s.roots ++ rs.filter fun r => decide (r ∉ s.roots) := by rw [← hs1]
        have hin : ∀ r, r ∈ s.roots ∨ r ∈ rs → r ∈ s1.roots := by
          intro r h
          rw [hr1, List.mem_append, List.mem_filter]
          by_cases hx : r ∈ s.roots
          · exact .inl hx
          · rcases h with h | h
            · exact .inl h
            · exact .inr ⟨h, by simpa using hx⟩
        rw [(repoRemoveLoop_effect rs s2).1 ⟨fun r h => by rw [u1]; exact hin r (.inr h), hnd⟩] at hr
        simp only [Prod.mk.injEq, true_and] at hr
        subst hr
        refine ⟨?_, ?_, ?_, ?_, ?_⟩
        · simp only [u1, hr1, List.filter_append]
          have : (rs.filter fun r => decide (r ∉ s.roots)).filter (fun x => decide (x ∉ rs)) = [] := by
            rw [List.filter_eq_nil_iff]
            intro a ha
            simp only [List.mem_filter] at ha
            simp [ha.1]
          rw [this, List.append_nil]
        · have : s2.errs = s1.errs := by rw [f1]
          simp only [this, ← hs1]
        · have : s2.heap = s1.heap := by rw [f1]
          simp only [this, ← hs1]
        · intro h
          exfalso; apply hall
          rw [List.isEmpty_iff, List.filter_eq_nil_iff]
          intro r hr'; simp [h r hr']
        · intro _ r h
          exact u2 r (hin r h)

/-- tracked roots are recorded below the container -/
def Listed (s : St) : Prop := ∀ r ∈ s.roots, (s.snap (some r)).isSome = true → Had s.kidPool none 0 (some r)

theorem had_congr {s s' : St} (hs : s'.snap = s.snap) {p n : Node} {k : Key} : Had s'.kidPool p k n ↔ Had s.kidPool p k n := by
  unfold Had St.kidPool; rw [hs]

theorem listed_add {s : St} {r : Ptr} (hs : Listed s) (hr : s.snap (some r) = none) : Listed (containerAdd r s).2 := by
  unfold containerAdd
  split
  · exact hs
  · intro x hx ht
    simp only [List.mem_append, List.mem_singleton] at hx
    rcases hx with hx | rfl
    · exact hs x hx ht
    · simp only at ht; rw [hr] at ht; cases ht

theorem containerAdd_snap (r : Ptr) (s : St) : (containerAdd r s).2.snap = s.snap := by
  unfold containerAdd; split <;> rfl

theorem listed_repoAdd {rs : List Ptr} {s : St} (hs : Listed s) : Listed (repoAdd rs s).2 := by
  induction rs generalizing s with
  | nil => exact hs
  | cons r rs ih =>
    unfold repoAdd
    split
    · exact hs
    · next hr =>
      have hr : s.snap (some r) = none := by simpa [St.hasSnapshot] using hr
      have h1 := listed_add hs hr
      cases hc : containerAdd r s with
      | mk x s1 =>
        rw [hc] at h1
        cases x with
        | err e => exact h1
        | ok _ => exact ih h1
        | panic => exact ih h1

theorem listed_customAdds {rs : List Ptr} {s : St} (hs : Listed s) : Listed (M.forEach rs customAdd s).2 := by
  induction rs generalizing s with
  | nil => exact hs
  | cons r rs ih =>
    simp only [M.forEach, M.bind]
    have h1 : Listed (customAdd r s).2 := by
      unfold customAdd
      split
      · exact hs
      · next hr => exact listed_add hs (by simpa [St.hasSnapshot] using hr)
    cases hc : customAdd r s with
    | mk x s1 =>
      rw [hc] at h1
      cases x with
      | ok _ => exact ih h1
      | err e => exact h1
      | panic => exact h1

theorem listed_removes {rs : List Ptr} {s : St} (hs : Listed s) : Listed (repoRemoveLoop rs s).2 := by
  induction rs generalizing s with
  | nil => exact hs
  | cons r rs ih =>
    unfold repoRemoveLoop containerRemove
    by_cases h : r ∈ s.roots
    · simp only [h, if_true]
      apply ih
      intro x hx ht
      simp only [List.mem_filter] at hx
      exact hs x hx.1 ht
    · simp only [h, if_false]; exact hs

theorem listed_of_roots {s : St} (h : ∀ r ∈ s.roots, Had s.kidPool none 0 (some r)) : Listed s := fun r hr _ => h r hr

theorem listed_update (hl : LoadsModels env) {s s' : St} {r : Res Unit} (hu : updateSnapshot env s = (r, s')) (hp : r ≠ .panic) : Listed s' := by
  cases r with
  | panic => exact absurd rfl hp
  | err e => exact absurd hu (updateSnapshot_noerr hl s s' e)
  | ok _ =>
    obtain ⟨h1, h2⟩ := updateSnapshot_roots hu
    exact listed_of_roots (by rw [h1]; exact h2)

theorem attempt_cases {m : M Unit} {s s' : St} {e : Option Err} (h : M.attempt m s = (.ok e, s')) : ∃ r, m s = (r, s') ∧ r ≠ .panic := by
  unfold M.attempt at h
  cases hm : m s with
  | mk r s1 =>
    rw [hm] at h
    cases r <;> simp at h
    · exact ⟨_, by rw [h.2], by simp⟩
    · exact ⟨_, by rw [h.2], by simp⟩

/-- the invariant, for a monadic step that does not panic -/
def KeepsListed (m : M Unit) : Prop := ∀ s r s', Listed s → m s = (r, s') → r ≠ .panic → Listed s'

theorem KeepsListed.bind {m : M Unit} {f : Unit → M Unit} (hm : KeepsListed m) (hf : ∀ a, KeepsListed (f a)) : KeepsListed (M.bind m f) := by
  intro s r s' hs h hp
  unfold M.bind at h
  cases hx : m s with
  | mk r1 s1 =>
    rw [hx] at h
    cases r1 with
    | ok a => exact hf a s1 r s' (hm s _ s1 hs hx (by simp)) h hp
    | err e => simp only [Prod.mk.injEq] at h; rw [← h.2]; exact hm s _ s1 hs hx (by simp)
    | panic => simp only [Prod.mk.injEq] at h; exact absurd h.1.symm hp

theorem kl_update (hl : LoadsModels env) : KeepsListed (updateSnapshot env) := fun s r s' _ h hp => listed_update hl h hp

theorem kl_flush (hl : LoadsModels env) : KeepsListed (flush env) := fun s r s' _ h hp => listed_update (s := { s with snap := fun _ => none }) hl h hp

theorem allows_roots : AllowsSave (fun a b : St => b.roots = a.roots) where
  refl _ := rfl
  trans h1 h2 := h2.trans h1
  heap _ _ := rfl
  log _ _ := rfl
  actions _ _ := rfl
  deleted _ _ := rfl
  snap _ _ := rfl

theorem kl_of_same {m : M Unit} (h1 : ∀ s, (m s).2.roots = s.roots) (h2 : ∀ s, (m s).2.snap = s.snap) : KeepsListed m := by
  intro s r s' hs h _
  have e1 := h1 s
  have e2 := h2 s
  rw [h] at e1 e2
  intro x hx ht
  simp only at e1 e2
  rw [e1] at hx
  rw [e2] at ht
  exact (had_congr e2).mpr (hs x hx ht)

theorem kl_persist : KeepsListed (persist env opts) := kl_of_same (fun s => allows_roots.persist s) persist_snap

theorem unDirty_snap (s : St) : (unDirty env s).2.snap = s.snap := by
  obtain ⟨h', e, _⟩ := unDirty_effect (env := env) s
  rw [e]

theorem kl_commitSave (hl : LoadsModels env) : KeepsListed (commitSave env opts) := by
  rw [commitSave_eq]
  exact kl_persist.bind fun _ => (kl_flush hl).bind fun _ => kl_of_same (fun s => allows_roots.unDirty s) unDirty_snap

theorem kl_build (r : Ptr) : KeepsListed (buildEntity env r) := by
  apply kl_of_same <;> intro s <;> unfold buildEntity <;> split <;> rfl

theorem kl_containerRemove (r : Ptr) : KeepsListed (containerRemove r) := by
  intro s res s' hs h _
  unfold containerRemove at h
  split at h
  · simp only [Prod.mk.injEq] at h
    rw [← h.2]
    intro x hx ht
    simp only [List.mem_filter] at hx
    exact hs x hx.1 ht
  · simp only [Prod.mk.injEq] at h
    rw [← h.2]; exact hs

theorem kl_repoRemove (hl : LoadsModels env) (rs : List Ptr) : KeepsListed (repoRemove env rs) := by
  intro s res s' hs h hp
  unfold repoRemove at h
  dsimp only at h
  split at h
  · have := listed_removes (rs := rs) hs; rw [h] at this; exact this
  · have h1 := listed_repoAdd (rs := rs.filter fun r => decide (r ∉ s.roots)) hs
    split at h
    · simp only [Prod.mk.injEq] at h; exact absurd h.1.symm hp
    · split at h
      · simp only [Prod.mk.injEq] at h; exact absurd h.1.symm hp
      · next e s2 hu => exact absurd hu (updateSnapshot_noerr hl _ s2 e)
      · next s2 hu =>
        have := listed_removes (rs := rs) (listed_update hl hu (by simp)); rw [h] at this; exact this

theorem kl_repoGet (hl : LoadsModels env) (r : Ptr) : KeepsListed (repoGet env r) := by
  intro s res s' hs h hp
  unfold repoGet at h
  split at h
  · simp only [Prod.mk.injEq] at h; rw [← h.2]; exact hs
  · next hr =>
    have hr : s.snap (some r) = none := by simpa [St.hasSnapshot] using hr
    have h' : M.bind (buildEntity env r) (fun _ => M.bind (containerAdd r) fun _ => updateSnapshot env) s = (res, s') := h
    unfold M.bind at h'
    have hsnap : (buildEntity env r s).2.snap = s.snap := by unfold buildEntity; split <;> rfl
    cases hb : buildEntity env r s with
    | mk x s1 =>
      rw [hb] at h' hsnap
      have hs1 : Listed s1 ∨ x = .panic := by
        by_cases hx : x = .panic
        · exact .inr hx
        · exact .inl (kl_build r s x s1 hs hb hx)
      cases x with
      | panic => simp only [Prod.mk.injEq] at h'; exact absurd h'.1.symm hp
      | err e =>
        simp only [Prod.mk.injEq] at h'; rw [← h'.2]
        rcases hs1 with hs1 | hs1
        · exact hs1
        · cases hs1
      | ok _ =>
        rcases hs1 with hs1 | hs1
        · have ha := listed_add hs1 (r := r) (by rw [hsnap]; exact hr)
          simp only at h'
          cases hc : containerAdd r s1 with
          | mk y s2 =>
            rw [hc] at h' ha
            cases y with
            | panic => simp only [Prod.mk.injEq] at h'; exact absurd h'.1.symm hp
            | err e => simp only [Prod.mk.injEq] at h'; rw [← h'.2]; exact ha
            | ok _ => exact listed_update hl h' hp
        · cases hs1

theorem kl_customGet (hl : LoadsModels env) (g : Heap → Heap) (rs : List Ptr) : KeepsListed (repoCustomGet env g rs) := by
  have : repoCustomGet env g rs = M.bind (M.modify fun s => { s with heap := g s.heap }) fun _ => M.bind (M.forEach rs customAdd) fun _ => updateSnapshot env := rfl
  rw [this]
  refine KeepsListed.bind (kl_of_same (fun _ => rfl) fun _ => rfl) fun _ => KeepsListed.bind ?_ fun _ => kl_update hl
  intro s r s' hs h _
  have := listed_customAdds (rs := rs) hs
  rw [h] at this; exact this

theorem listed_next (hl : LoadsModels env) {p p' : Prog} {s s' : St} (hn : Next env opts p s p' s') (hs : Listed s)
    (hc : ∀ r k, p = .cAdd r k → s.snap (some r) = none) : Listed s' := by
  cases hn with
  | mutate => exact hs
  | look => exact hs
  | output => exact hs
  | get h => obtain ⟨r, h, hp⟩ := attempt_cases h; exact kl_repoGet hl _ s r s' hs h hp
  | customGet h => obtain ⟨r, h, hp⟩ := attempt_cases h; exact kl_customGet hl _ _ s r s' hs h hp
  | @add rs _ _ _ h => have := listed_repoAdd (rs := rs) hs; rw [h] at this; exact this
  | remove h => exact kl_repoRemove hl _ s _ s' hs h (by simp)
  | save h =>
    obtain ⟨r, h, hp⟩ := attempt_cases h
    unfold repoSave at h
    split at h
    · simp only [Prod.mk.injEq] at h; rw [← h.2]; exact hs
    · exact kl_commitSave hl s r s' hs h hp
  | commit h => obtain ⟨r, h, hp⟩ := attempt_cases h; exact kl_commitSave hl s r s' hs h hp
  | build h => obtain ⟨r, h, hp⟩ := attempt_cases h; exact kl_build _ s r s' hs h hp
  | @enter rs _ _ _ h =>
    unfold enterRoots at h
    split at h
    · simp at h
    · obtain ⟨h1, h2⟩ := flush_roots h
      exact listed_of_roots (by rw [h1]; exact h2)
  | @cAdd r k _ _ _ h =>
    obtain ⟨x, h, hp⟩ := attempt_cases h
    have := listed_add (r := r) hs (hc r _ rfl)
    rw [h] at this; exact this
  | cRemove h => obtain ⟨r, h, hp⟩ := attempt_cases h; exact kl_containerRemove _ s r s' hs h hp

/-- **C66** (what is recorded) At every point: a root of the repository that has been loaded or saved is recorded as such. -/
theorem C66_tracked_roots_recorded (hl : LoadsModels env) {main p : Prog} {keys : List Nat} {s : St}
    (hv : Proper env opts main (atStart opts keys (.fresh h)) p s) : ∀ r ∈ s.roots, (s.snap (some r)).isSome = true → Had s.kidPool none 0 (some r) := by
  have : ∀ {p p' : Prog} {s s' : St}, Proper env opts p s p' s' → Listed s → Listed s' := by
    intro p p' s s' hv
    induction hv with
    | here => exact id
    | step hc hn _ ih => exact fun hs => ih (listed_next hl hn hs hc)
  exact this hv (fun r hr => by simp [atStart, St.fresh] at hr)

theorem proper_visits {p p' : Prog} {s s' : St} (hq : Proper env opts p s p' s') : Visits env opts p s p' s' := by
  induction hq with
  | here => exact .here _ _
  | step _ hn _ ih => exact .step hn ih

/-- **C66** (as long as nothing is loaded in between) A root given to `Repository.Remove` without misuse, which was loaded or saved before or which the repository does not hold,
is deleted by the next successful save, unless user code puts it back into the aggregate. Missing for the full property: loads between `Remove` and the save (`C66_remove_then_get_lost`, `C66_two_removes_lost`). -/
theorem C66_removed_deleted_partial (hl : LoadsModels env) {main k p2 : Prog} {keys : List Nat} {rs : List Ptr} {s s1 s2 s' : St}
    (hv : Proper env opts main (atStart opts keys (.fresh h)) (.remove rs k) s) (hm : ¬ RemoveMisuse rs s) (hn : Next env opts (.remove rs k) s k s1)
    (hq : NoLoad env opts k s1 p2 s2) (hp : persist env opts s2 = (.ok (), s')) :
    ∃ t, s'.trace = s2.trace ++ t ∧ ∀ r ∈ rs, r ∉ s.roots ∨ (s.snap (some r)).isSome = true → ¬ Reach s2.now none (some r) →
      (⟨some r, none, .delete⟩ : Job) ∈ asked t := by
  obtain ⟨cs, t, hcs, ht, ha⟩ := save_calls env opts hp
  refine ⟨t, ht, ?_⟩
  intro r hr hcase hout
  have hlist := C66_tracked_roots_recorded hl hv
  have heff : repoRemove env rs s = (.ok (), s1) := by cases hn with | remove h => exact h
  obtain ⟨_, _, _, e4, e5⟩ := repoRemove_effect hl hm heff
  have hhad : Had s1.kidPool none 0 (some r) := by
    by_cases hx : ∀ r ∈ rs, r ∈ s.roots
    · rw [had_congr (e4 hx)]
      rcases hcase with h1 | h1
      · exact absurd (hx r hr) h1
      · exact hlist r (hx r hr) h1
    · refine e5 ?_ r (.inr hr)
      by_contra hc
      apply hx
      intro r' hr'
      by_contra h'
      exact hc ⟨r', hr', h'⟩
  have hhad2 : Had s2.kidPool none 0 (some r) := (had_congr (quiet_snap hq)).mpr hhad
  rw [ha, changes_jobs env opts hcs .delete none (some r)]
  refine .inl ⟨⟨0, .root, ⟨s2.roots.map some, by simp [St.now, St.graph, stageGraph]⟩, hhad2, ?_⟩, ?_⟩
  · intro hh; exact hout (.step .root ⟨0, hh⟩)
  · rintro ⟨p', k', h1, h2, _⟩; exact hout (.step h1 ⟨k', h2⟩)

/-- without misuse, `Remove` takes the roots out of the repository -/
theorem C66_remove_from_repository (hl : LoadsModels env) {k : Prog} {rs : List Ptr} {s s1 : St} (hm : ¬ RemoveMisuse rs s) (hn : Next env opts (.remove rs k) s k s1) :
    s1.roots = s.roots.filter (fun x => decide (x ∉ rs)) ∧ s1.errs = s.errs ∧ s1.heap = s.heap := by
  cases hn with
  | remove h =>
    obtain ⟨h1, h2, h3, _⟩ := repoRemove_effect hl hm h
    exact ⟨h1, h2, h3⟩

/-- **C66** A root that was only added and is removed again before the save is not written at all. -/
theorem C66_added_then_removed_silent (hl : LoadsModels env) {main p : Prog} {keys : List Nat} {s s' : St}
    (hv : Visits env opts main (atStart opts keys (.fresh h)) p s) (hp : persist env opts s = (.ok (), s')) (hr : opts.recursiveDelete = false) :
    ∃ t, s'.trace = s.trace ++ t ∧ ∀ q, s.snap q = none → ¬ Reach s.now none q → ∀ j ∈ asked t, j.node ≠ q := by
  obtain ⟨cs, t, hcs, ht, ha⟩ := save_calls env opts hp
  refine ⟨t, ht, ?_⟩
  rintro q hq hout ⟨n, par, op⟩ hj rfl
  simp only at hq hout
  have hno : ∀ p k, ¬ Had s.kidPool p k n := by
    intro p k hh
    have := had_tracked (closed_visits hl hv closed_empty) hh
    rw [hq] at this; cases this
  rw [ha, changes_jobs env opts hcs op par n] at hj
  cases op with
  | insert => obtain ⟨⟨k, h1, h2, _⟩, _⟩ := hj; exact hout (.step h1 ⟨k, h2⟩)
  | update =>
    rcases hj with ⟨k, _, _, h3, _⟩ | ⟨⟨k, h1, h2, _⟩, _⟩
    · exact hno _ _ h3
    · exact hout (.step h1 ⟨k, h2⟩)
  | delete =>
    rcases hj with ⟨⟨k, h1⟩, _⟩ | ⟨h1, _⟩
    · exact hno _ _ h1.2.2.1
    · rw [hr] at h1; cases h1
  | query => exact hj

/-! ## Concrete cases -/
namespace Demo
/-- 30 has children 5 and 6, 5 has child 2; 31, 32 have none -/
def repoHeap : Heap := heapOf [(30, [(0, [5, 6])]), (5, [(0, [2])])] stdAttr (by decide) (by decide)

def cmdOf (p : Prog) : Cmd := { init := none, main := p, post := none }

/-- the rows written by a command: operation and IDs, and whether it committed -/
def outcome (c : Cmd) (h : Heap) : List (Op × List Nat) × List Call :=
  ((written (run okEnv { stdOpts with withTransaction := true } c h).2.trace).map (fun a => (a.op, a.models.map Model.id)),
    ends (run okEnv { stdOpts with withTransaction := true } c h).2.trace)

/-- adding 30: everything below is inserted -/
example : outcome (cmdOf (.add [30] (.ret none))) repoHeap = ([(.insert, [30, 5, 6, 2])], [.commit .ok]) := by decide +kernel

/-- removing: a root the repository does not know, and one it has loaded -/
example : outcome (cmdOf (.remove [31] (.ret none))) repoHeap = ([(.delete, [31])], [.commit .ok]) ∧
    outcome (cmdOf (.get 31 fun _ => .remove [31] (.ret none))) repoHeap = ([(.delete, [31])], [.commit .ok]) ∧
    outcome (cmdOf (.add [31] (.remove [31] (.ret none)))) repoHeap = ([], [.commit .ok]) := by decide +kernel

/-- C65, C66: the points of these programs meet the hypotheses -/
example : ∃ s s1, Visits okEnv stdOpts (.add [30] (.ret none)) (atStart stdOpts [] (.fresh repoHeap)) (.add [30] (.ret none)) s ∧ ¬ AddMisuse [30] s ∧
    Next okEnv stdOpts (.add [30] (.ret none)) s (.ret none) s1 ∧ NoLoad okEnv stdOpts (.ret none) s1 (.ret none) s1 ∧ 30 ∈ s1.roots := by
  refine ⟨_, _, .here _ _, ?_, .add rfl, .here _ _, by decide +kernel⟩
  rintro (⟨r, hr, h⟩ | h)
  · simp [atStart, St.fresh] at h
  · simp at h

theorem ok_of {x : Res Unit × St} (h : (match x.1 with | .ok _ => true | _ => false) = true) : x = (.ok (), x.2) := by
  obtain ⟨r, s⟩ := x
  cases r <;> simp at h ⊢

example : ∃ s s1 s', Proper okEnv stdOpts (.remove [31] (.ret none)) (atStart stdOpts [] (.fresh repoHeap)) (.remove [31] (.ret none)) s ∧ ¬ RemoveMisuse [31] s ∧
    Next okEnv stdOpts (.remove [31] (.ret none)) s (.ret none) s1 ∧ NoLoad okEnv stdOpts (.ret none) s1 (.ret none) s1 ∧ 31 ∉ s.roots ∧
    persist okEnv stdOpts s1 = (.ok (), s') := by
  refine ⟨_, (repoRemove okEnv [31] (atStart stdOpts [] (.fresh repoHeap))).2, (persist okEnv stdOpts (repoRemove okEnv [31] (atStart stdOpts [] (.fresh repoHeap))).2).2,
    .here _ _, ?_, .remove (ok_of (by decide +kernel)), .here _ _, by decide +kernel, ok_of (by decide +kernel)⟩
  rintro (⟨r, hr, h, h'⟩ | h)
  · simp [atStart, St.fresh] at h
  · simp at h

end Demo

open Demo in
/-- **C65 is false in general**: `Add(31)`, then `Get(32)`, then the end of the command: loading 32 records 31 as if it had been loaded, so the new root 31 is never inserted; the command succeeds and commits. -/
theorem C65_add_then_get_lost :
    outcome (cmdOf (.add [31] (.get 32 fun _ => .ret none))) repoHeap = ([], [.commit .ok]) ∧
    outcome (cmdOf (.get 32 fun _ => .add [31] (.ret none))) repoHeap = ([(.insert, [31])], [.commit .ok]) := by decide +kernel

open Demo in
/-- **C65 is false in general**: the same when a root the repository does not hold is removed in between. -/
theorem C65_add_then_remove_lost :
    outcome (cmdOf (.add [31] (.remove [32] (.ret none)))) repoHeap = ([(.delete, [32])], [.commit .ok]) := by decide +kernel

open Demo in
/-- **C65 is false in general**: a new child 5 (with its own new child 2) is put below the loaded root 30, then 32 is loaded: 5 is inserted, 2 is not. -/
theorem C65_new_grandchild_lost :
    let h0 := heapOf [(30, [(0, [])]), (5, [(0, [2])])] stdAttr (by decide) (by decide)
    outcome (cmdOf (.get 30 fun _ => .mutate (fun _ => heapOf [(30, [(0, [5])]), (5, [(0, [2])])] stdAttr (by decide) (by decide))
      (.get 32 fun _ => .ret none))) h0 = ([(.insert, [5])], [.commit .ok]) ∧
    outcome (cmdOf (.get 30 fun _ => .get 32 fun _ => .mutate (fun _ => heapOf [(30, [(0, [5])]), (5, [(0, [2])])] stdAttr (by decide) (by decide))
      (.ret none))) h0 = ([(.insert, [5, 2])], [.commit .ok]) := by decide +kernel

open Demo in
/-- **C66 is false in general**: `Get(31)`, `Remove(31)`, `Get(32)`: loading 32 records the roots anew, without 31, so 31 is never deleted. -/
theorem C66_remove_then_get_lost :
    outcome (cmdOf (.get 31 fun _ => .remove [31] (.get 32 fun _ => .ret none))) repoHeap = ([], [.commit .ok]) ∧
    outcome (cmdOf (.get 31 fun _ => .get 32 fun _ => .remove [31] (.ret none))) repoHeap = ([(.delete, [31])], [.commit .ok]) := by decide +kernel

open Demo in
/-- **C66 is false in general**: two `Remove` calls of roots the repository does not hold: only the last is deleted. In one call both are. -/
theorem C66_two_removes_lost :
    outcome (cmdOf (.remove [31] (.remove [32] (.ret none)))) repoHeap = ([(.delete, [32])], [.commit .ok]) ∧
    outcome (cmdOf (.remove [31, 32] (.ret none))) repoHeap = ([(.delete, [31, 32])], [.commit .ok]) := by decide +kernel

end Ddd
