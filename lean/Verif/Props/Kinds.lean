import Verif.Spec.Kinds
import Verif.Props.PostCommit
import Verif.Props.CommandDemo
/-!
# C87, C88: what `Run` does with the values it is given
-/
set_option linter.unusedVariables false
set_option linter.unusedSimpArgs false
namespace Ddd.Kinds
open Ddd Spec
variable {env : Env} {opts : Opts} {h : Heap} {o : Obj}

theorem runInit_plain (agent : Bool) (i : IProg) (hp : i.Plain) : ∀ h, runInit env opts agent i (.fresh h) = ((i.eval h).1, .fresh (i.eval h).2) := by
  induction i with
  | done ks => intro h; rfl
  | fail e => intro h; rfl
  | panic => intro h; rfl
  | mutate f k ih => intro h; exact ih hp (f h)
  | look k ih => intro h; exact ih h (hp h) h
  | commit k ih => exact absurd hp id
  | output v k ih => exact absurd hp id

theorem afterInit_run (post : Option Nat) (main : Prog) (r : Res (List Nat)) :
    afterInit env opts post main (r, .fresh h) = run env opts { init := some r, main := main, post := post } h := by
  cases r <;> rfl

theorem noAgent_eq (m : Prog) (hm : NoAgent m) : noAgent m = m := by
  induction m with
  | ret r => rfl
  | panic => rfl
  | mutate f k ih => simp [noAgent, ih hm]
  | look k ih => simp only [noAgent]; congr 1; funext h; exact ih h (hm h)
  | get r k ih => simp only [noAgent]; congr 1; funext h; exact ih h (hm h)
  | customGet g rs k ih => simp only [noAgent]; congr 1; funext h; exact ih h (hm h)
  | add rs k ih => simp [noAgent, ih hm]
  | remove rs k ih => simp [noAgent, ih hm]
  | save k ih => simp only [noAgent]; congr 1; funext h; exact ih h (hm h)
  | commit k => exact absurd hm id
  | output v k => exact absurd hm id
  | build r k ih => simp only [noAgent]; congr 1; funext h; exact ih h (hm h)
  | enter rs k ih => simp [noAgent, ih hm]
  | cAdd r k ih => simp [noAgent, ih hm]
  | cRemove r k ih => simp [noAgent, ih hm]

/-- **C87** A value with the four methods of `ICommand` is run as `Init`, then `Build` and `Act` as main part, `PostSave` as hook. -/
theorem C87_icommand {i : IProg} {b : BProg} {a : List Ptr → Prog} {p : Nat} (h1 : o.init = some i) (h2 : o.build = some b) (h3 : o.act = some a) (h4 : o.post = some p)
    (hi : i.Plain) : runObj env opts o h = run env opts { init := some (i.eval h).1, main := body a b, post := some p } (i.eval h).2 := by
  unfold runObj
  rw [h1, h2, h3, h4]
  simp only
  rw [runInit_plain true i hi h, afterInit_run]

/-- **C87** … even if it has `Main` too: that is never called. -/
theorem C87_main_ignored (hi : o.IsICommand) (m : Option Prog) : runObj env opts { o with main := m } h = runObj env opts o h := by
  obtain ⟨h1, h2, h3, h4⟩ := hi
  obtain ⟨i, h1⟩ := Option.isSome_iff_exists.1 h1
  obtain ⟨b, h2⟩ := Option.isSome_iff_exists.1 h2
  obtain ⟨a, h3⟩ := Option.isSome_iff_exists.1 h3
  obtain ⟨p, h4⟩ := Option.isSome_iff_exists.1 h4
  unfold runObj
  simp only [h1, h2, h3, h4]

theorem runObj_other (hi : ¬ o.IsICommand) : runObj env opts o h =
    match o.main with
    | some m =>
      match o.init with
      | some i => afterInit env opts o.post (noAgent m) (runInit env opts false i (.fresh h))
      | none => save env { opts with hooks := opts.hooks ++ o.post.toList } [] (noAgent m) (.fresh h)
    | none =>
      match o.func with
      | some m => save env opts [] (noAgent m) (.fresh h)
      | none => (none, .fresh h) := by
  conv => lhs; unfold runObj
  split
  · next h1 h2 h3 h4 => exact absurd ⟨by simp [h1], by simp [h2], by simp [h3], by simp [h4]⟩ hi
  · rfl

/-- **C87** Any other value with `Main`: `Init` and `PostSave` are used if it has them, `Main` is the main part (not using the agent, which it is not given). -/
theorem C87_main {m : Prog} (hi : ¬ o.IsICommand) (hm : o.main = some m) (hna : NoAgent m) :
    (o.init = none → runObj env opts o h = run env opts { init := none, main := m, post := o.post } h) ∧
    (∀ i, o.init = some i → i.Plain → runObj env opts o h = run env opts { init := some (i.eval h).1, main := m, post := o.post } (i.eval h).2) := by
  rw [runObj_other hi, hm]
  simp only [noAgent_eq m hna]
  constructor
  · intro hn; rw [hn]; rfl
  · intro i hn hp
    rw [hn]
    simp only
    rw [runInit_plain false i hp h, afterInit_run]

/-- **C87** A function is the main part; there is no `Init` and no own hook. -/
theorem C87_func {m : Prog} (hi : ¬ o.IsICommand) (hm : o.main = none) (hf : o.func = some m) (hna : NoAgent m) :
    runObj env opts o h = run env opts { init := none, main := m, post := none } h := by
  rw [runObj_other hi, hm, hf]
  simp [run, noAgent_eq m hna]

/-- **C87** Anything else panics before anything is called. -/
theorem C87_invalid (hi : ¬ o.IsICommand) (hm : o.main = none) (hf : o.func = none) : runObj env opts o h = (none, .fresh h) := by
  rw [runObj_other hi, hm, hf]

/-- **C87** `Create` and `Delete` are commands with one call. -/
theorem C87_create_delete (rs : List Ptr) :
    create env opts rs h = run env opts { init := none, main := .add rs (.ret none), post := none } h ∧
    delete env opts rs h = run env opts { init := none, main := .remove rs (.ret none), post := none } h := by
  simp [create, delete, run]

/-! ## the agent in `Init` -/

/-- a stage nothing was done with. -/
structure Unused (s : St) : Prop where
  roots : s.roots = []
  deleted : s.deleted = []
  errs : s.errs = []
  actions : s.actions = []
  snap : ∀ p, s.snap (some p) = none
  root : ∀ sn, s.snap none = some sn → sn.kids = [(0, [])]
  trace : ∀ x ∈ s.trace, IsLoad x

theorem unused_walk {s : St} (hu : s.roots = []) (o : MapOrder Node) : walk s.graph o none none = [⟨none, none⟩] := by
  have hk : s.graph.kids none = [(0, [])] := by simp [St.graph, stageGraph, hu]
  unfold walk walkFuel
  have hp := o.perm none (s.graph.kids none)
  rw [hk] at hp ⊢
  rw [List.perm_singleton.1 hp]
  simp

theorem unused_persist {s : St} (hu : Unused s) : persist env opts s = (.ok (), s) := by
  have hs : entityDiff s.graph s.heap.dirtyNode s.kidPool none = [] := by
    unfold entityDiff entityDiffFuel sortedKids
    have hk : s.graph.kids none = [(0, [])] := by simp [St.graph, stageGraph, hu.roots]
    have hold : snapKids s.kidPool none 0 = [] := by
      unfold snapKids St.kidPool
      cases hc : s.snap none with
      | none => rfl
      | some sn => simp [hu.root sn hc]
    rw [hk]
    simp [hold, createdOf_eq, remainOf_eq, deletedOf_eq, mkChange]
  have hc : entityChanges env opts s = some [] := by
    unfold entityChanges
    rw [hs]
    have : handleEntityMove ([] : List (Change Node)) = some [] := rfl
    rw [this]
    simp [recursiveDelete]
  rw [persist_eq]
  unfold M.bind getEntityChanged
  rw [hc]
  simp only
  unfold runHooks putNewID makeActions actLoops exec M.bind M.forEach M.pure recycle M.modify
  by_cases hd : opts.dryRun = true <;> simp [hd, ActAcc.actions, collectOp, M.pure, M.bind, M.forEach, M.modify]

theorem unused_visit {s : St} (hu : Unused s) : Unused (snapshotVisit env ⟨none, none⟩ s).2 ∧ (snapshotVisit env ⟨none, none⟩ s).2.heap = s.heap := by
  have hk : s.graph.kids none = [(0, [])] := by simp [St.graph, stageGraph, hu.roots]
  have hlog : ∀ st u, Unused (s.log (.conv none none .query st u)) := fun st u =>
    ⟨hu.roots, hu.deleted, hu.errs, hu.actions, hu.snap, hu.root, by
      intro x hx
      rcases List.mem_append.1 hx with hx | hx
      · exact hu.trace x hx
      · rw [List.mem_singleton.1 hx]; trivial⟩
  have hset : ∀ st u po, Unused { s.log (.conv none none .query st u) with snap := fun n => if n = none then some { po := po, kids := s.graph.kids none, keys := s.graph.keys none } else s.snap n } := by
    intro st u po
    refine ⟨hu.roots, hu.deleted, hu.errs, hu.actions, ?_, ?_, (hlog st u).trace⟩
    · intro p; simpa using hu.snap p
    · intro sn hs
      simp only [if_pos, Option.some.injEq] at hs
      subst hs
      exact hk
  unfold snapshotVisit convert
  split
  · exact ⟨hu, rfl⟩
  · dsimp only
    cases hcv : env.conv s.trace s.heap none none .query with
    | panic => exact ⟨hlog _ _, rfl⟩
    | ok m => exact ⟨hset _ _ _, rfl⟩
    | err e =>
      dsimp only
      split
      · exact ⟨hset _ _ _, rfl⟩
      · exact ⟨hlog _ _, rfl⟩

theorem unused_flush {s : St} (hu : Unused s) : Unused (flush env s).2 ∧ (flush env s).2.heap = s.heap := by
  have hu' : Unused { s with snap := fun _ => none } := ⟨hu.roots, hu.deleted, hu.errs, hu.actions, fun _ => rfl, fun sn h => by simp at h, hu.trace⟩
  unfold flush updateSnapshot
  rw [unused_walk hu'.roots]
  have := unused_visit (env := env) hu'
  simp only [M.forEach, M.bind]
  generalize snapshotVisit env ⟨none, none⟩ { s with snap := fun _ => none } = x at this ⊢
  obtain ⟨r, s1⟩ := x
  cases r <;> exact this

theorem unused_commit {s : St} (hu : Unused s) : Unused (commitSave env opts s).2 ∧ (commitSave env opts s).2.heap = s.heap := by
  rw [commitSave_eq]
  unfold M.bind
  rw [unused_persist hu]
  have := unused_flush (env := env) hu
  simp only
  generalize flush env s = x at this ⊢
  obtain ⟨r, s1⟩ := x
  cases r with
  | panic => exact this
  | err e => exact this
  | ok u =>
    simp only
    unfold unDirty
    rw [unused_walk this.1.roots]
    exact this

theorem unused_init (agent : Bool) (i : IProg) : ∀ s, Unused s → Unused (runInit env opts agent i s).2 ∧ Edited i s.heap (runInit env opts agent i s).2.heap := by
  induction i with
  | done ks => intro s hu; exact ⟨hu, .stop _ _⟩
  | fail e => intro s hu; exact ⟨hu, .stop _ _⟩
  | panic => intro s hu; exact ⟨hu, .stop _ _⟩
  | mutate f k ih =>
    intro s hu
    obtain ⟨a, b⟩ := ih { s with heap := f s.heap } ⟨hu.roots, hu.deleted, hu.errs, hu.actions, hu.snap, hu.root, hu.trace⟩
    exact ⟨a, .mutate b⟩
  | look k ih =>
    intro s hu
    obtain ⟨a, b⟩ := ih s.heap s hu
    exact ⟨a, .look b⟩
  | commit k ih =>
    intro s hu
    unfold runInit
    split
    · have := unused_commit (env := env) (opts := opts) hu
      unfold M.bind M.attempt
      generalize commitSave env opts s = x at this ⊢
      obtain ⟨r, s1⟩ := x
      obtain ⟨t1, t2⟩ := this
      cases r with
      | panic => exact ⟨t1, by simp only at t2 ⊢; rw [t2]; exact .stop _ _⟩
      | ok u =>
        obtain ⟨a, b⟩ := ih none s1 t1
        exact ⟨a, .commit none (by simp only at t2; rw [← t2]; exact b)⟩
      | err e =>
        obtain ⟨a, b⟩ := ih (some e) s1 t1
        exact ⟨a, .commit (some e) (by simp only at t2; rw [← t2]; exact b)⟩
    · exact ⟨hu, .stop _ _⟩
  | output v k ih =>
    intro s hu
    cases agent
    swap
    · obtain ⟨a, b⟩ := ih { s with output := v } ⟨hu.roots, hu.deleted, hu.errs, hu.actions, hu.snap, hu.root, hu.trace⟩
      exact ⟨a, .output b⟩
    · exact ⟨hu, .stop _ _⟩

/-- **C87** `Init`, whatever it does with the agent, writes nothing and records nothing: only the converter is asked (for the container of the roots); the objects are as
the user's edits leave them. -/
theorem C87_init_inert (agent : Bool) (i : IProg) :
    (∀ x ∈ (runInit env opts agent i (.fresh h)).2.trace, IsLoad x) ∧ (runInit env opts agent i (.fresh h)).2.roots = [] ∧
    (runInit env opts agent i (.fresh h)).2.deleted = [] ∧ (runInit env opts agent i (.fresh h)).2.actions = [] ∧
    Edited i h (runInit env opts agent i (.fresh h)).2.heap := by
  obtain ⟨a, b⟩ := unused_init (env := env) (opts := opts) agent i (.fresh h) ⟨rfl, rfl, rfl, rfl, fun _ => rfl, fun sn h => by simp [St.fresh] at h, by simp [St.fresh]⟩
  exact ⟨a.trace, a.roots, a.deleted, a.actions, b⟩

/-! ## C88 -/

/-- **C88** `Build`, then (if it returned roots, all with IDs, and everything could be recorded) `Act` with these roots; otherwise `Act` is not called and the command fails with the
error of `Build`, or the one of the check or of the converter. -/
theorem C88_phases_partial (act : List Ptr → Prog) (b : BProg) : ∀ s, runProg env opts (body act b) s =
    match runBuild env opts b s with
    | (.ok rs, s1) =>
      if ∃ r ∈ rs, (s1.heap.attr r).id = 0 then (.err errBuildNoID, s1)
      else match flush env { s1 with roots := rs } with
        | (.ok _, s2) => runProg env opts (act rs) s2
        | (.err e, s2) => (.err e, s2)
        | (.panic, s2) => (.panic, s2)
    | (.err e, s1) => (.err e, s1)
    | (.panic, s1) => (.panic, s1) := by
  induction b with
  | done rs =>
    intro s
    simp only [body, runProg, runBuild, M.pure, M.bind, enterRoots, List.any_eq_true, decide_eq_true_eq]
    by_cases hx : ∃ x, x ∈ rs ∧ (s.heap.attr x).id = 0
    · simp only [if_pos hx]
    · simp only [if_neg hx]
      generalize flush env _ = x
      obtain ⟨q, s1⟩ := x
      cases q <;> rfl
  | fail e => intro s; rfl
  | panic => intro s; rfl
  | mutate f k ih => intro s; exact ih _
  | look k ih => intro s; exact ih _ s
  | build r k ih =>
    intro s
    simp only [body, runProg, runBuild]
    unfold M.bind
    generalize M.attempt (buildEntity env r) s = x
    obtain ⟨q, s1⟩ := x
    cases q with
    | ok e => exact ih e s1
    | err e => rfl
    | panic => rfl
  | commit k ih =>
    intro s
    simp only [body, runProg, runBuild]
    unfold M.bind
    generalize M.attempt (commitSave env opts) s = x
    obtain ⟨q, s1⟩ := x
    cases q with
    | ok e => exact ih e s1
    | err e => rfl
    | panic => rfl
  | output v k ih => intro s; exact ih _

/-- **C88** When `Act` starts, the repository holds exactly the roots `Build` returned, the objects are as `Build` left them, and exactly the entities below the roots are
remembered, each as it is now. -/
theorem C88_act_start {s1 s2 : St} {rs : List Ptr} (hf : flush env { s1 with roots := rs } = (.ok (), s2)) :
    s2.roots = rs ∧ s2.heap = s1.heap ∧ (∀ n, Reach s2.now none n → ∃ sn, s2.snap n = some sn ∧ Faithful env s2.heap s2.now n sn) ∧
    (∀ n, ¬ Reach s2.now none n → s2.snap n = none) ∧ s2.deleted = s1.deleted ∧ s2.errs = s1.errs ∧ ∃ t, s2.trace = s1.trace ++ t ∧ ∀ x ∈ t, IsLoad x := by
  obtain ⟨h1, h2, h3⟩ := flush_ok hf
  have hr : s2.roots = rs := by rw [h1]
  have hh : s2.heap = s1.heap := by rw [h1]
  have hg : ({ s1 with roots := rs } : St).graph.kids = s2.now := by simp [St.now, St.graph, hr, hh]
  rw [hg] at h2 h3
  refine ⟨hr, hh, by rw [hh]; exact h2, h3, by rw [h1], by rw [h1], ?_⟩
  have := (does_flush_load (env := env) { s1 with roots := rs }).trace
  rw [hf] at this
  exact this

/-- a save of a stage whose entities are all remembered with the children they have: only updates of entities marked dirty. -/
theorem only_updates {s s' : St} (hp : persist env opts s = (.ok (), s')) (hs : ∀ n, Reach s.now none n → ∃ sn, s.snap n = some sn ∧ sn.kids = s.now n) :
    ∃ t, s'.trace = s.trace ++ t ∧ ∀ j ∈ asked t, j.op = .update ∧ s.heap.dirtyNode j.node = true := by
  have noadd : ∀ p k n, ¬ Added s.now s.kidPool none p k n := by
    rintro p k n ⟨h1, ⟨cs, h2, h3⟩, h4⟩
    obtain ⟨sn, h5, h6⟩ := hs p h1
    exact h4 ⟨sn.kids, cs, by simp [St.kidPool, h5], by rw [h6]; exact h2, h3⟩
  have nogone : ∀ p k n, ¬ Gone s.now s.kidPool none p k n := by
    rintro p k n ⟨h1, _, ⟨fs, cs, h2, h3, h4⟩, h5⟩
    obtain ⟨sn, h6, h7⟩ := hs p h1
    simp only [St.kidPool, h6, Option.map_some, Option.some.injEq] at h2
    exact h5 ⟨cs, by rw [← h7, h2]; exact h3, h4⟩
  have key : ∃ t, s'.trace = s.trace ++ t ∧ (∀ n p, (⟨n, p, .insert⟩ : Job) ∉ asked t) ∧ (∀ n p, (⟨n, p, .delete⟩ : Job) ∉ asked t) ∧
      ∀ n p, (⟨n, p, .update⟩ : Job) ∈ asked t → ∃ k, Touched s.now s.kidPool s.heap.dirtyNode none p k n := by
    obtain ⟨cs, t, hc, ht, ha⟩ := save_calls env opts hp
    refine ⟨t, ht, ?_, ?_, ?_⟩
    · intro n p hj
      rw [ha] at hj
      obtain ⟨⟨k, h1⟩, _⟩ := (changes_jobs env opts hc .insert p n).1 hj
      exact noadd p k n h1
    · intro n p hj
      by_cases hrec : opts.recursiveDelete = true
      · obtain ⟨t', ht', h'⟩ := C08_recursive_delete_partial env opts hp hrec
        have : t' = t := by rw [ht] at ht'; exact (List.append_cancel_left ht').symm
        subst this
        obtain ⟨r, ⟨⟨q, k, hg⟩, _⟩, _⟩ := (h' n).1 ⟨p, hj⟩
        exact nogone q k r hg
      · obtain ⟨t', ht', _, _, _, h'⟩ := C01_changes_exact env opts hp (by simpa using hrec)
        have : t' = t := by rw [ht] at ht'; exact (List.append_cancel_left ht').symm
        subst this
        obtain ⟨⟨k, hg⟩, _⟩ := (h' n p).1 hj
        exact nogone p k n hg
    · intro n p hj
      rw [ha] at hj
      rcases (changes_jobs env opts hc .update p n).1 hj with h1 | ⟨⟨k, h1⟩, _⟩
      · exact h1
      · exact absurd h1 (noadd p k n)
  obtain ⟨t, ht, h1, h2, h3⟩ := key
  refine ⟨t, ht, ?_⟩
  rintro ⟨n, p, op⟩ hj
  cases op with
  | insert => exact absurd hj (h1 n p)
  | delete => exact absurd hj (h2 n p)
  | update => obtain ⟨k, hk⟩ := h3 n p hj; exact ⟨rfl, hk.2.2.2⟩
  | query =>
    exfalso
    unfold asked at hj
    obtain ⟨y, _, hy⟩ := List.mem_filterMap.1 hj
    split at hy <;> simp at hy

/-- **C88** Changes made in `Build` are not saved: if `Act` changes nothing, a successful command inserts and deletes nothing, and updates only entities that are marked dirty when `Build` ends
(with the model of that moment as previous one). -/
theorem C88_build_changes_not_saved {c : Cmd} {b : BProg} {r : Result} (hm : c.main = body (fun _ => .ret none) b)
    (hr : (run env opts c h).1 = some r) (hc : r.clean) :
    ∃ a t u, (run env opts c h).2.trace = a ++ .mainRet .ok :: (t ++ u) ∧ (∀ x ∈ u, isConv x = false) ∧
      ∃ keys rs s1, runBuild env (c.opts opts) b (atStart (c.opts opts) keys (.fresh h)) = (.ok rs, s1) ∧
        ∀ j ∈ asked t, j.op = .update ∧ s1.heap.dirtyNode j.node = true := by
  obtain ⟨keys, s1, s2, hk, hcm, hp, s3, hf, tl, hfin, htl⟩ := run_clean_core hr hc
  obtain ⟨te, hte, hte2⟩ := finishEvents_noConv (env := env) (opts := c.opts opts) s2
  rw [hf] at hte
  have hst : { atMain (c.opts opts) keys (.fresh h) with trace := (atMain (c.opts opts) keys (.fresh h)).trace ++ [.mainStart] } = atStart (c.opts opts) keys (.fresh h) := by
    simp [atMain, atStart]
  unfold callMain at hcm
  rw [hst, hm, C88_phases_partial] at hcm
  cases hb : runBuild env (c.opts opts) b (atStart (c.opts opts) keys (.fresh h)) with
  | mk q sb =>
    rw [hb] at hcm
    cases q with
    | err e => simp at hcm
    | panic => simp at hcm
    | ok rs =>
      simp only at hcm
      split at hcm
      · simp at hcm
      · cases hfl : flush env { sb with roots := rs } with
        | mk q2 sf =>
          rw [hfl] at hcm
          cases q2 with
          | err e => simp at hcm
          | panic => simp at hcm
          | ok u =>
            simp only [runProg, M.pure, Prod.mk.injEq, true_and] at hcm
            subst hcm
            obtain ⟨f1, f2, f3, _⟩ := C88_act_start hfl
            obtain ⟨t, ht, hjobs⟩ := only_updates hp (by
              intro n hn
              obtain ⟨sn, g1, g2⟩ := f3 n hn
              exact ⟨sn, g1, g2.1⟩)
            refine ⟨sf.trace, t, te ++ tl, ?_, ?_, keys, rs, sb, hb, ?_⟩
            · rw [hfin]
              simp only
              rw [hte, ht]
              simp [St.log, Res.stat]
            · intro x hx
              rcases List.mem_append.1 hx with hx | hx
              · exact hte2 x hx
              · exact htl x hx
            · intro j hj
              have := hjobs j hj
              simpa [St.log, f2] using this

end Ddd.Kinds
