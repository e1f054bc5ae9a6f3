import Verif.Props.Repository
/-!
# C65, C66: what a load does to roots that were added or removed before it
-/
set_option linter.unusedVariables false
namespace Ddd
open Spec
variable {env : Env} {opts : Opts}

/-- the container is recorded with the roots `R` -/
def Noted (s : St) (R : List Ptr) : Prop := ∀ r k, Had s.kidPool none k (some r) ↔ k = 0 ∧ r ∈ R

theorem noted_congr {s s' : St} (hs : s'.snap = s.snap) {R : List Ptr} (h : Noted s R) : Noted s' R := fun r k => (had_congr hs).trans (h r k)

theorem noted_update {s s' : St} (hu : updateSnapshot env s = (.ok (), s')) : s'.roots = s.roots ∧ Noted s' s.roots := by
  obtain ⟨h1, h2, _, _⟩ := updateSnapshot_ok hu
  refine ⟨by rw [h1], ?_⟩
  intro r k
  obtain ⟨sn, hs, hf⟩ := h2 none .root (.inl rfl)
  have hk : sn.kids = [((0 : Key), s.roots.map some)] := by rw [hf.1]; simp [St.graph, stageGraph]
  constructor
  · rintro ⟨fields, cs, e1, e2, e3⟩
    simp only [St.kidPool, hs, Option.map_some, Option.some.injEq] at e1
    subst e1
    rw [hk] at e2
    simp only [List.mem_cons, List.not_mem_nil, or_false, Prod.mk.injEq] at e2
    obtain ⟨rfl, rfl⟩ := e2
    exact ⟨rfl, by simpa using e3⟩
  · rintro ⟨rfl, hr⟩
    exact ⟨sn.kids, s.roots.map some, by simp [St.kidPool, hs], by rw [hk]; simp, by simp [hr]⟩

theorem noted_flush {s s' : St} (hu : flush env s = (.ok (), s')) : s'.roots = s.roots ∧ Noted s' s.roots :=
  noted_update (s := { s with snap := fun _ => none }) hu

/-- the result of a call: nothing recorded, or the roots recorded -/
def Notes (s s' : St) : Prop := s'.snap = s.snap ∨ Noted s' s'.roots

theorem outcome_update (hl : LoadsModels env) {s s' : St} {r : Res Unit} (hu : updateSnapshot env s = (r, s')) (hp : r ≠ .panic) : Noted s' s'.roots := by
  cases r with
  | panic => exact absurd rfl hp
  | err e => exact absurd hu (updateSnapshot_noerr hl s s' e)
  | ok _ => obtain ⟨h1, h2⟩ := noted_update hu; rw [h1]; exact h2

theorem outcome_get (hl : LoadsModels env) {x : Ptr} {s s' : St} {r : Res Unit} (h : repoGet env x s = (r, s')) (hp : r ≠ .panic) :
    (s'.snap = s.snap ∧ r ≠ .ok ()) ∨ Noted s' s'.roots := by
  unfold repoGet at h
  split at h
  · simp only [Prod.mk.injEq] at h; rw [← h.2, ← h.1]; exact .inl ⟨rfl, by simp⟩
  · have h' : M.bind (buildEntity env x) (fun _ => M.bind (containerAdd x) fun _ => updateSnapshot env) s = (r, s') := h
    unfold M.bind at h'
    have hsnap : (buildEntity env x s).2.snap = s.snap := by unfold buildEntity; split <;> rfl
    cases hb : buildEntity env x s with
    | mk y s1 =>
      rw [hb] at h' hsnap
      cases y with
      | panic => simp only [Prod.mk.injEq] at h'; exact absurd h'.1.symm hp
      | err e => simp only [Prod.mk.injEq] at h'; rw [← h'.2, ← h'.1]; exact .inl ⟨hsnap, by simp⟩
      | ok _ =>
        simp only at h'
        have hc' := containerAdd_snap x s1
        cases hc : containerAdd x s1 with
        | mk z s2 =>
          rw [hc] at h' hc'
          cases z with
          | panic => simp only [Prod.mk.injEq] at h'; exact absurd h'.1.symm hp
          | err e => simp only [Prod.mk.injEq] at h'; rw [← h'.2, ← h'.1]; exact .inl ⟨hc'.trans hsnap, by simp⟩
          | ok _ => exact .inr (outcome_update hl h' hp)

theorem customAdds_snap (rs : List Ptr) : ∀ s : St, (M.forEach rs customAdd s).2.snap = s.snap := by
  induction rs with
  | nil => intro s; rfl
  | cons r rs ih =>
    intro s
    simp only [M.forEach, M.bind]
    have h1 : (customAdd r s).2.snap = s.snap := by
      unfold customAdd; split
      · rfl
      · exact containerAdd_snap r s
    cases hc : customAdd r s with
    | mk x s1 =>
      rw [hc] at h1
      cases x with
      | ok _ => exact (ih s1).trans h1
      | err e => exact h1
      | panic => exact h1

theorem outcome_customGet (hl : LoadsModels env) {g : Heap → Heap} {rs : List Ptr} {s s' : St} {r : Res Unit} (h : repoCustomGet env g rs s = (r, s')) (hp : r ≠ .panic) :
    (s'.snap = s.snap ∧ r ≠ .ok ()) ∨ Noted s' s'.roots := by
  have e : repoCustomGet env g rs = M.bind (M.modify fun s => { s with heap := g s.heap }) fun _ => M.bind (M.forEach rs customAdd) fun _ => updateSnapshot env := rfl
  rw [e] at h
  simp only [M.bind, M.modify] at h
  have hs := customAdds_snap rs { s with heap := g s.heap }
  cases hf : M.forEach rs customAdd { s with heap := g s.heap } with
  | mk y s1 =>
    rw [hf] at h hs
    cases y with
    | panic => simp only [Prod.mk.injEq] at h; exact absurd h.1.symm hp
    | err e => simp only [Prod.mk.injEq] at h; rw [← h.2, ← h.1]; exact .inl ⟨hs, by simp⟩
    | ok _ => exact .inr (outcome_update hl h hp)

theorem outcome_commitSave (hl : LoadsModels env) {s s' : St} {r : Res Unit} (h : commitSave env opts s = (r, s')) (hp : r ≠ .panic) : Notes s s' := by
  rw [commitSave_eq] at h
  simp only [M.bind] at h
  have h1 := persist_snap (env := env) (opts := opts) s
  cases hx : persist env opts s with
  | mk y s1 =>
    rw [hx] at h h1
    cases y with
    | panic => simp only [Prod.mk.injEq] at h; exact absurd h.1.symm hp
    | err e => simp only [Prod.mk.injEq] at h; rw [← h.2]; exact .inl h1
    | ok _ =>
      simp only at h
      cases hf : flush env s1 with
      | mk z s2 =>
        rw [hf] at h
        cases z with
        | panic => simp only [Prod.mk.injEq] at h; exact absurd h.1.symm hp
        | err e => exact absurd hf (updateSnapshot_noerr hl _ s2 e)
        | ok _ =>
          simp only at h
          obtain ⟨n1, n2⟩ := noted_flush hf
          have u1 := unDirty_snap (env := env) s2
          have u2 : (unDirty env s2).2.roots = s2.roots := allows_roots.unDirty s2
          rw [h] at u1 u2
          refine .inr ?_
          simp only at u1 u2
          rw [u2, n1]
          exact noted_congr u1 n2

/-- what a step of user code records: nothing, or the roots there are, and those it removes -/
theorem outcome_next (hl : LoadsModels env) {p p' : Prog} {s s' : St} (hn : Next env opts p s p' s') :
    s'.snap = s.snap ∨ ∃ R, Noted s' R ∧ (∀ r ∈ s'.roots, r ∈ R) ∧ ∀ r ∈ R, r ∈ s'.roots ∨ ∃ rs k, p = .remove rs k ∧ r ∈ rs := by
  have out : ∀ {s s' : St}, Notes s s' → s'.snap = s.snap ∨ ∃ R, Noted s' R ∧ (∀ r ∈ s'.roots, r ∈ R) ∧ ∀ r ∈ R, r ∈ s'.roots ∨ ∃ rs k, p = .remove rs k ∧ r ∈ rs := by
    rintro s s' (h | h)
    · exact .inl h
    · exact .inr ⟨_, h, fun _ h => h, fun _ h => .inl h⟩
  cases hn with
  | mutate => exact .inl rfl
  | look => exact .inl rfl
  | output => exact .inl rfl
  | get h => obtain ⟨r, h, hp⟩ := attempt_cases h; exact out ((outcome_get hl h hp).imp And.left id)
  | customGet h => obtain ⟨r, h, hp⟩ := attempt_cases h; exact out ((outcome_customGet hl h hp).imp And.left id)
  | add h => exact .inl (repoAdd_snap' h)
  | @remove rs kk _ _ h =>
    unfold repoRemove at h
    dsimp only at h
    split at h
    · exact .inl (repoRemoveLoop_snap' h)
    · split at h
      · simp at h
      · split at h
        · simp at h
        · next e s2 hu => exact absurd hu (updateSnapshot_noerr hl _ s2 e)
        · next s2 hu =>
          obtain ⟨n1, n2⟩ := noted_update hu
          refine .inr ⟨_, noted_congr (repoRemoveLoop_snap' h) n2, ?_, ?_⟩
          · rw [← n1]
            intro r hr
            have : ∀ (l : List Ptr) (s : St), ∀ r ∈ (repoRemoveLoop l s).2.roots, r ∈ s.roots := by
              intro l
              induction l with
              | nil => intro s r h; exact h
              | cons x l ih =>
                intro s r h
                unfold repoRemoveLoop containerRemove at h
                by_cases hx : x ∈ s.roots
                · simp only [hx, if_true] at h
                  have := ih _ r h
                  simp only [List.mem_filter] at this
                  exact this.1
                · simp only [hx, if_false] at h; exact h
            have := this rs s2 r
            rw [h] at this
            exact this hr
          · rw [← n1]
            intro r hr
            by_cases hrs : r ∈ rs
            · exact .inr ⟨rs, _, rfl, hrs⟩
            · left
              have : ∀ (l : List Ptr) (s : St), r ∉ l → r ∈ s.roots → r ∈ (repoRemoveLoop l s).2.roots := by
                intro l
                induction l with
                | nil => intro s _ h; exact h
                | cons x l ih =>
                  intro s hl h
                  unfold repoRemoveLoop containerRemove
                  by_cases hx : x ∈ s.roots
                  · simp only [hx, if_true]
                    apply ih _ (fun h' => hl (by simp [h']))
                    simp only [List.mem_filter, h, true_and, decide_eq_true_eq]
                    intro e; exact hl (by simp [e])
                  · simp only [hx, if_false]; exact h
              have := this rs s2 hrs hr
              rw [h] at this
              exact this
  | save h =>
    obtain ⟨r, h, hp⟩ := attempt_cases h
    unfold repoSave at h
    split at h
    · simp only [Prod.mk.injEq] at h; rw [← h.2]; exact .inl rfl
    · exact out (outcome_commitSave hl h hp)
  | commit h => obtain ⟨r, h, hp⟩ := attempt_cases h; exact out (outcome_commitSave hl h hp)
  | @build r _ _ _ _ h =>
    obtain ⟨x, h, hp⟩ := attempt_cases h
    have : (buildEntity env r s).2.snap = s.snap := by unfold buildEntity; split <;> rfl
    rw [h] at this
    exact .inl this
  | enter h =>
    unfold enterRoots at h
    split at h
    · simp at h
    · obtain ⟨h1, h2⟩ := noted_flush h
      exact out (.inr (by rw [h1]; exact h2))
  | @cAdd r _ _ _ _ h =>
    obtain ⟨x, h, hp⟩ := attempt_cases h
    have := containerAdd_snap r s
    rw [h] at this
    exact .inl this
  | @cRemove r _ _ _ _ h =>
    obtain ⟨x, h, hp⟩ := attempt_cases h
    have : (containerRemove r s).2.snap = s.snap := by unfold containerRemove; split <;> rfl
    rw [h] at this
    exact .inl this

theorem loads_noted (hl : LoadsModels env) {p p' : Prog} {s s' : St} (h : Loads env opts p s p' s') : Noted s' s'.roots := by
  cases h with
  | get h => exact (outcome_get hl h (by simp)).resolve_left fun h => h.2 rfl
  | customGet h => exact (outcome_customGet hl h (by simp)).resolve_left fun h => h.2 rfl

theorem had_during (hl : LoadsModels env) {r : Ptr} {p p' : Prog} {s s' : St} (h : During env opts (fun _ s => r ∈ s.roots) p s p' s') (hh : Had s.kidPool none 0 (some r)) :
    Had s'.kidPool none 0 (some r) := by
  induction h with
  | here => exact hh
  | step hn hok _ ih =>
    apply ih
    rcases outcome_next hl hn with h1 | ⟨R, h1, h2, _⟩
    · exact (had_congr h1).2 hh
    · exact (h1 r 0).2 ⟨rfl, h2 r hok⟩

theorem nothad_during (hl : LoadsModels env) {r : Ptr} {p p' : Prog} {s s' : St}
    (h : During env opts (fun p s => r ∉ s.roots ∧ ∀ rs k, p = .remove rs k → r ∉ rs) p s p' s') (hh : ∀ k, ¬ Had s.kidPool none k (some r)) : ∀ k, ¬ Had s'.kidPool none k (some r) := by
  induction h with
  | here => exact hh
  | step hn hok _ ih =>
    apply ih
    intro k
    rcases outcome_next hl hn with h1 | ⟨R, h1, _, h3⟩
    · rw [had_congr h1]; exact hh k
    · rw [h1 r k]
      rintro ⟨_, hr⟩
      rcases h3 r hr with h4 | ⟨rs, k', e, h4⟩
      · exact hok.1 h4
      · exact hok.2 rs k' e h4

/-- **C65** (the claim fails for every such program) If a root is in the repository when `Get` or `CustomGet` succeeds (for example it was given to `Repository.Add` before), then whatever user code does afterwards while the root stays in the
repository, loading and saving included, no successful save inserts it (unless it is also put below another entity). -/
theorem C65_load_loses (hl : LoadsModels env) {p p1 p2 : Prog} {s s1 s2 s' : St} {r : Ptr} (h1 : Loads env opts p s p1 s1) (hr : r ∈ s1.roots)
    (h2 : During env opts (fun _ s => r ∈ s.roots) p1 s1 p2 s2) (hp : persist env opts s2 = (.ok (), s')) :
    ∃ t, s'.trace = s2.trace ++ t ∧ ∀ par, (⟨some r, par, .insert⟩ : Job) ∈ asked t → par ≠ none ∧ Child s2.now par (some r) := by
  obtain ⟨cs, t, hcs, ht, ha⟩ := save_calls env opts hp
  refine ⟨t, ht, ?_⟩
  intro par hj
  rw [ha, changes_jobs env opts hcs .insert par (some r)] at hj
  obtain ⟨⟨k, _, g2, g3⟩, _⟩ := hj
  refine ⟨?_, k, g2⟩
  rintro rfl
  have hk : k = 0 := by
    obtain ⟨cs', e1, _⟩ := g2
    have e1 : (k, cs') ∈ [((0 : Key), s2.roots.map some)] := e1
    simp only [List.mem_cons, List.not_mem_nil, or_false, Prod.mk.injEq] at e1
    exact e1.1
  subst hk
  exact g3 (had_during hl h2 ((loads_noted hl h1 r 0).2 ⟨rfl, hr⟩))

/-- **C66** (the claim fails for every such program) If a root is not in the repository any more when `Get` or `CustomGet` succeeds (for example it was given to `Repository.Remove` before), then whatever user code does afterwards without
putting it back or removing it again, no successful save deletes it (unless it was recorded as a child of another entity, or a removed entity has it as a child and deletes are recursive). -/
theorem C66_load_loses (hl : LoadsModels env) {p p1 p2 : Prog} {s s1 s2 s' : St} {r : Ptr} (h1 : Loads env opts p s p1 s1) (hr : r ∉ s1.roots)
    (h2 : During env opts (fun p s => r ∉ s.roots ∧ ∀ rs k, p = .remove rs k → r ∉ rs) p1 s1 p2 s2) (hp : persist env opts s2 = (.ok (), s')) :
    ∃ t, s'.trace = s2.trace ++ t ∧ ∀ par, (⟨some r, par, .delete⟩ : Job) ∈ asked t →
      (par ≠ none ∧ ∃ k, Had s2.kidPool par k (some r)) ∨ (opts.recursiveDelete = true ∧ Child s2.now par (some r)) := by
  obtain ⟨cs, t, hcs, ht, ha⟩ := save_calls env opts hp
  refine ⟨t, ht, ?_⟩
  intro par hj
  rw [ha, changes_jobs env opts hcs .delete par (some r)] at hj
  rcases hj with ⟨⟨k, _, _, g3, _⟩, _⟩ | ⟨g1, x, _, _, g2⟩
  · refine .inl ⟨?_, k, g3⟩
    rintro rfl
    exact nothad_during hl h2 (fun k hk => hr ((loads_noted hl h1 r k).1 hk).2) k g3
  · exact .inr ⟨g1, g2⟩

open Demo in
/-- hypotheses of `C65_load_loses`: `Add(31)`, `Get(32)`, save -/
example : ∃ s s1 s', Next okEnv stdOpts (.add [31] (.get 32 fun _ => .ret none)) (atStart stdOpts [] (.fresh repoHeap)) (.get 32 fun _ => .ret none) s ∧
    Loads okEnv stdOpts (.get 32 fun _ => .ret none) s (.ret none) s1 ∧ 31 ∈ s1.roots ∧ persist okEnv stdOpts s1 = (.ok (), s') := by
  refine ⟨(repoAdd [31] (atStart stdOpts [] (.fresh repoHeap))).2, (repoGet okEnv 32 (repoAdd [31] (atStart stdOpts [] (.fresh repoHeap))).2).2,
    (persist okEnv stdOpts (repoGet okEnv 32 (repoAdd [31] (atStart stdOpts [] (.fresh repoHeap))).2).2).2, .add (ok_of (by decide +kernel)), .get (k := fun _ => .ret none) (ok_of (by decide +kernel)), by decide +kernel,
    ok_of (by decide +kernel)⟩

open Demo in
/-- hypotheses of `C66_load_loses`: `Remove(31)`, `Get(32)`, save -/
example : ∃ s s1 s', Next okEnv stdOpts (.remove [31] (.get 32 fun _ => .ret none)) (atStart stdOpts [] (.fresh repoHeap)) (.get 32 fun _ => .ret none) s ∧
    Loads okEnv stdOpts (.get 32 fun _ => .ret none) s (.ret none) s1 ∧ 31 ∉ s1.roots ∧ persist okEnv stdOpts s1 = (.ok (), s') := by
  refine ⟨(repoRemove okEnv [31] (atStart stdOpts [] (.fresh repoHeap))).2, (repoGet okEnv 32 (repoRemove okEnv [31] (atStart stdOpts [] (.fresh repoHeap))).2).2,
    (persist okEnv stdOpts (repoGet okEnv 32 (repoRemove okEnv [31] (atStart stdOpts [] (.fresh repoHeap))).2).2).2, .remove (ok_of (by decide +kernel)), .get (k := fun _ => .ret none) (ok_of (by decide +kernel)), by decide +kernel,
    ok_of (by decide +kernel)⟩

end Ddd
