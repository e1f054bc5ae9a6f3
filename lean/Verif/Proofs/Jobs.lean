import Verif.Proofs.Plan
import Verif.Proofs.Actions
/-! The jobs of a save in terms of the aggregate, and the writes of any save (also failing ones). -/
set_option linter.unusedVariables false
namespace Ddd
open Spec

theorem mem_zipWith' {α β γ : Type} {f : α → β → γ} {l1 : List α} {l2 : List β} {x : γ} (h : x ∈ List.zipWith f l1 l2) :
    ∃ a b, (a, b) ∈ l1.zip l2 ∧ x = f a b := by
  induction l1 generalizing l2 with
  | nil => simp at h
  | cons a l1 ih =>
    cases l2 with
    | nil => simp at h
    | cons b l2 =>
      simp only [List.zipWith_cons_cons, List.mem_cons] at h
      rcases h with h | h
      · exact ⟨a, b, by simp, h⟩
      · obtain ⟨a', b', h1, h2⟩ := ih h
        exact ⟨a', b', by simp [h1], h2⟩

theorem mem_jobs {cs : List (Change Node)} {n p : Node} {op : Op} :
    (⟨n, p, op⟩ : Job) ∈ jobs cs ↔ ∃ ch ∈ cs, ch.ctype.op = op ∧ ch.parent = p ∧ n ∈ ch.children := by
  simp only [jobs, List.mem_flatMap, List.mem_map, Job.mk.injEq]
  constructor
  · rintro ⟨c, hc, x, hx, rfl, rfl, rfl⟩; exact ⟨c, hc, rfl, rfl, hx⟩
  · rintro ⟨c, hc, rfl, rfl, hx⟩; exact ⟨c, hc, n, hx, rfl, rfl, rfl⟩

theorem jobs_nodes (cs : List (Change Node)) : (jobs cs).map Job.node = cs.flatMap Change.children := by
  simp only [jobs, List.map_flatMap, List.map_map, Function.comp_def, List.map_id']

theorem St.kidPool_keys (s : St) : s.kidPool.Keys := by
  intro n fields h
  unfold St.kidPool at h
  rw [Option.map_eq_some_iff] at h
  obtain ⟨sn, _, rfl⟩ := h
  exact sn.keys

variable (env : Env) (opts : Opts)

/-- the aggregate of a stage now. -/
abbrev St.now (s : St) : Kids Node := s.graph.kids

theorem diff_nodup (s : St) : ∀ c ∈ entityDiff s.graph s.heap.dirtyNode s.kidPool none, c.children.Nodup :=
  fun ch hch => (entityDiff_children _ _ _ s.kidPool_keys none ch hch).2

theorem lists_iff (s : St) (w : Way) (n : Node) :
    Lists (entityDiff s.graph s.heap.dirtyNode s.kidPool none) w.ctype n ↔
      ∃ p k, ChangedAt s.now s.kidPool s.heap.dirtyNode none w p k n := by
  constructor
  · rintro ⟨c, hc, ht, hn⟩
    exact ⟨_, _, (changedAt_iff _ _ _ s.kidPool_keys none w c.parent c.key n).1 ⟨c, hc, ht, rfl, rfl, hn⟩⟩
  · rintro ⟨p, k, h⟩
    obtain ⟨c, hc, ht, _, _, hn⟩ := (changedAt_iff _ _ _ s.kidPool_keys none w p k n).2 h
    exact ⟨c, hc, ht, hn⟩

/-- membership in the plan before recursive deletion. -/
theorem plan_mem (s : St) {res : List (Change Node)}
    (h : handleEntityMove (entityDiff s.graph s.heap.dirtyNode s.kidPool none) = some res) (t : ChangeType) (p : Node) (n : Node) :
    (∃ ch ∈ res, ch.ctype = t ∧ ch.parent = p ∧ n ∈ ch.children) ↔
      match t with
      | .new => (∃ k, Added s.now s.kidPool none p k n) ∧ ¬ ∃ p' k', Gone s.now s.kidPool none p' k' n
      | .dirty => (∃ k, Touched s.now s.kidPool s.heap.dirtyNode none p k n) ∨
          ((∃ k, Added s.now s.kidPool none p k n) ∧ ∃ p' k', Gone s.now s.kidPool none p' k' n)
      | .delete => (∃ k, Gone s.now s.kidPool none p k n) ∧ ¬ ∃ p' k', Added s.now s.kidPool none p' k' n
      | .clear => False := by
  have hm := handleEntityMove_mem _ (diff_nodup s) h
  have hnew := lists_iff s .added n
  have hdel := lists_iff s .gone n
  simp only [Way.ctype, ChangedAt] at hnew hdel
  have hrec : ∀ (w : Way) k, (∃ ch ∈ entityDiff s.graph s.heap.dirtyNode s.kidPool none,
      ch.ctype = w.ctype ∧ ch.parent = p ∧ ch.key = k ∧ n ∈ ch.children) ↔
      ChangedAt s.now s.kidPool s.heap.dirtyNode none w p k n := fun w k => changedAt_iff _ _ _ s.kidPool_keys none w p k n
  have hkey : (∃ ch ∈ res, ch.ctype = t ∧ ch.parent = p ∧ n ∈ ch.children) ↔
      ∃ k, ∃ ch ∈ res, ch.ctype = t ∧ ch.parent = p ∧ ch.key = k ∧ n ∈ ch.children := by
    constructor
    · rintro ⟨ch, h1, h2, h3, h4⟩; exact ⟨_, ch, h1, h2, h3, rfl, h4⟩
    · rintro ⟨k, ch, h1, h2, h3, _, h4⟩; exact ⟨ch, h1, h2, h3, h4⟩
  rw [hkey]
  simp only [hm t p _ n, hnew, hdel]
  have r1 := hrec .added; have r2 := hrec .touched; have r3 := hrec .gone
  simp only [Way.ctype, ChangedAt] at r1 r2 r3
  simp only [r1]
  cases t with
  | new =>
    simp only [r1, reduceCtorEq, false_and, or_false]
    constructor
    · rintro ⟨k, h1, h2⟩; exact ⟨⟨k, h1⟩, fun h => h2 ⟨⟨p, k, h1⟩, h⟩⟩
    · rintro ⟨⟨k, h1⟩, h2⟩; exact ⟨k, h1, fun h => h2 h.2⟩
  | dirty =>
    simp only [r2, true_and]
    constructor
    · rintro ⟨k, ⟨h1, h2⟩ | ⟨h1, h2⟩⟩
      · exact Or.inl ⟨k, h1⟩
      · exact Or.inr ⟨⟨k, h1⟩, h2⟩
    · rintro (⟨k, h1⟩ | ⟨⟨k, h1⟩, h2⟩)
      · refine ⟨k, Or.inl ⟨h1, ?_⟩⟩
        rintro ⟨⟨p', k', h2⟩, _⟩
        have := plan_conflict s.graph s.heap.dirtyNode s.kidPool s.kidPool_keys none n
          ⟨.touched, p, k, .added, p', k', h1, h2, by simp, by simp, by simp⟩
        rw [this] at h; simp at h
      · exact ⟨k, Or.inr ⟨h1, h2⟩⟩
  | delete =>
    simp only [r3, reduceCtorEq, false_and, or_false]
    constructor
    · rintro ⟨k, h1, h2⟩; exact ⟨⟨k, h1⟩, fun h => h2 ⟨h, ⟨p, k, h1⟩⟩⟩
    · rintro ⟨⟨k, h1⟩, h2⟩; exact ⟨k, h1, fun h => h2 h.1⟩
  | clear =>
    simp only [reduceCtorEq, false_and, or_false, iff_false, not_exists]
    rintro k ⟨⟨ch, hch, ht, _⟩, _⟩
    obtain ⟨w, hw⟩ := entityDiff_ctype _ _ _ s.kidPool_keys none hch
    rw [ht] at hw
    cases w <;> cases hw

theorem entityChanges_some {s : St} {cs : List (Change Node)} (h : entityChanges env opts s = some cs) :
    ∃ res, handleEntityMove (entityDiff s.graph s.heap.dirtyNode s.kidPool none) = some res ∧
      cs = (if opts.recursiveDelete then recursiveDelete s.graph (env.ord s.trace 3) (env.ord s.trace 4) res else res) := by
  unfold entityChanges at h
  rw [Option.map_eq_some_iff] at h
  obtain ⟨res, h1, h2⟩ := h
  exact ⟨res, h1, h2.symm⟩

theorem mem_recursiveDelete (g : Graph Node) (o1 o2 : MapOrder Node) (cs : List (Change Node)) (t : ChangeType) (p n : Node) :
    (∃ ch ∈ recursiveDelete g o1 o2 cs, ch.ctype = t ∧ ch.parent = p ∧ n ∈ ch.children) ↔
      (∃ ch ∈ cs, ch.ctype = t ∧ ch.parent = p ∧ n ∈ ch.children) ∨
      (t = .delete ∧ ∃ r, (∃ ch ∈ cs, ch.ctype = .delete ∧ r ∈ ch.children) ∧ Reach g.kids r p ∧ Child g.kids p n) := by
  unfold recursiveDelete
  simp only [List.mem_append, List.mem_flatMap, List.mem_filter, decide_eq_true_eq, List.mem_map]
  constructor
  · rintro ⟨ch, h | ⟨it, ⟨hit, hd⟩, c, hc, v, hv, grp, hg, rfl⟩, rfl, rfl, hn⟩
    · exact Or.inl ⟨ch, h, rfl, rfl, hn⟩
    · right
      rw [(o2.perm _ _).mem_iff] at hg
      refine ⟨rfl, c, ⟨it, hit, hd, hc⟩, ?_, grp.1, grp.2, hg, hn⟩
      exact (mem_walk_entity g o1 c (some it.parent) v.entity).1 (List.mem_map.2 ⟨v, hv, rfl⟩)
  · rintro (⟨ch, h, rfl, rfl, hn⟩ | ⟨rfl, r, ⟨it, hit, hd, hc⟩, hr, k, cs', hg, hn⟩)
    · exact ⟨ch, Or.inl h, rfl, rfl, hn⟩
    · have := (mem_walk_entity g o1 r (some it.parent) p).2 hr
      rw [List.mem_map] at this
      obtain ⟨v, hv, rfl⟩ := this
      exact ⟨⟨.delete, v.entity, k, cs'⟩, Or.inr ⟨it, ⟨hit, hd⟩, r, hc, v, hv, (k, cs'),
        (o2.perm _ _).mem_iff.2 hg, rfl⟩, rfl, rfl, hn⟩

/-- the changes of a save, entity by entity. -/
theorem changes_mem {s : St} {cs : List (Change Node)} (h : entityChanges env opts s = some cs) (t : ChangeType) (p n : Node) :
    (∃ ch ∈ cs, ch.ctype = t ∧ ch.parent = p ∧ n ∈ ch.children) ↔
      match t with
      | .new => (∃ k, Added s.now s.kidPool none p k n) ∧ ¬ ∃ p' k', Gone s.now s.kidPool none p' k' n
      | .dirty => (∃ k, Touched s.now s.kidPool s.heap.dirtyNode none p k n) ∨
          ((∃ k, Added s.now s.kidPool none p k n) ∧ ∃ p' k', Gone s.now s.kidPool none p' k' n)
      | .delete => ((∃ k, Gone s.now s.kidPool none p k n) ∧ ¬ ∃ p' k', Added s.now s.kidPool none p' k' n) ∨
          (opts.recursiveDelete = true ∧ ∃ r, ((∃ q k, Gone s.now s.kidPool none q k r) ∧
            ¬ ∃ p' k', Added s.now s.kidPool none p' k' r) ∧ Reach s.now r p ∧ Child s.now p n)
      | .clear => False := by
  obtain ⟨res, h1, rfl⟩ := entityChanges_some env opts h
  have hp := plan_mem s h1
  cases hr : opts.recursiveDelete with
  | false =>
    simp only [Bool.false_eq_true, if_false, hp, false_and, or_false]
  | true =>
    simp only [if_true, mem_recursiveDelete, hp, true_and]
    have hdel : ∀ r, (∃ ch ∈ res, ch.ctype = .delete ∧ r ∈ ch.children) ↔
        ((∃ q k, Gone s.now s.kidPool none q k r) ∧ ¬ ∃ p' k', Added s.now s.kidPool none p' k' r) := by
      intro r
      constructor
      · rintro ⟨ch, h1, h2, h3⟩
        have := (hp .delete ch.parent r).1 ⟨ch, h1, h2, rfl, h3⟩
        exact ⟨⟨_, this.1⟩, this.2⟩
      · rintro ⟨⟨q, hq⟩, h2⟩
        obtain ⟨ch, h3, h4, _, h5⟩ := (hp .delete q r).2 ⟨hq, h2⟩
        exact ⟨ch, h3, h4, h5⟩
    cases t <;> simp [hdel]

theorem ctype_op_iff (c : ChangeType) (op : Op) : c.op = op ↔ match op with
    | .insert => c = .new | .update => c = .dirty | .delete => c = .delete ∨ c = .clear | .query => False := by
  cases c <;> cases op <;> simp [ChangeType.op]

/-- the jobs of a save, entity by entity. -/
theorem changes_jobs {s : St} {cs : List (Change Node)} (h : entityChanges env opts s = some cs) (op : Op) (p n : Node) :
    (⟨n, p, op⟩ : Job) ∈ jobs cs ↔
      match op with
      | .insert => (∃ k, Added s.now s.kidPool none p k n) ∧ ¬ ∃ p' k', Gone s.now s.kidPool none p' k' n
      | .update => (∃ k, Touched s.now s.kidPool s.heap.dirtyNode none p k n) ∨
          ((∃ k, Added s.now s.kidPool none p k n) ∧ ∃ p' k', Gone s.now s.kidPool none p' k' n)
      | .delete => ((∃ k, Gone s.now s.kidPool none p k n) ∧ ¬ ∃ p' k', Added s.now s.kidPool none p' k' n) ∨
          (opts.recursiveDelete = true ∧ ∃ r, ((∃ q k, Gone s.now s.kidPool none q k r) ∧
            ¬ ∃ p' k', Added s.now s.kidPool none p' k' r) ∧ Reach s.now r p ∧ Child s.now p n)
      | .query => False := by
  rw [mem_jobs]
  have hm := changes_mem env opts h
  cases op with
  | insert => simpa only [ctype_op_iff] using hm .new p n
  | update => simpa only [ctype_op_iff] using hm .dirty p n
  | delete =>
    simp only [ctype_op_iff]
    have hd := hm .delete p n
    dsimp only at hd
    rw [← hd]
    constructor
    · rintro ⟨ch, h1, h2 | h2, h3, h4⟩
      · exact ⟨ch, h1, h2, h3, h4⟩
      · exact absurd ((hm .clear p n).1 ⟨ch, h1, h2, h3, h4⟩) id
    · rintro ⟨ch, h1, h2, h3, h4⟩; exact ⟨ch, h1, Or.inl h2, h3, h4⟩
  | query => simp only [ctype_op_iff, false_and, and_false, exists_false]

theorem changes_nodup {s : St} {cs : List (Change Node)} (h : entityChanges env opts s = some cs)
    (hr : opts.recursiveDelete = false) : ((jobs cs).map Job.node).Nodup := by
  obtain ⟨res, h1, rfl⟩ := entityChanges_some env opts h
  rw [hr, jobs_nodes]
  exact handleEntityMove_nodup _ (diff_nodup s) h1

/-! ### the writes of any save -/

theorem execAll_any (F : Action → M Unit) (hF : ∀ a s, F a s = (env.exec s.trace a, s.log (.exec a (env.exec s.trace a).stat))) :
    ∀ (as : List Action) (s : St), ∃ (m : Nat) (sts : List Stat),
    (M.forEach as F s).2 =
      { s with trace := s.trace ++ List.zipWith Call.exec (as.take m) sts } ∧ sts.length = (as.take m).length ∧
      (∀ st ∈ sts.dropLast, st = .ok) := by
  intro as
  induction as with
  | nil => intro s; exact ⟨0, [], by simp [M.forEach, M.pure]⟩
  | cons a as ih =>
    intro s
    simp only [M.forEach, M.bind]
    rw [hF]
    cases hr : env.exec s.trace a with
    | ok u =>
      obtain ⟨m, sts, h1, h2, h3⟩ := ih (s.log (.exec a .ok))
      refine ⟨m + 1, .ok :: sts, ?_, by simp [h2], ?_⟩
      · simp only [Res.stat]
        rw [h1]
        simp [St.log]
      · intro st hst
        cases sts with
        | nil => simp at hst
        | cons x xs =>
          rw [List.dropLast_cons_cons] at hst
          rcases List.mem_cons.1 hst with h | h
          · exact h
          · exact h3 st h
    | err e => exact ⟨1, [.err], by simp [St.log, Res.stat]⟩
    | panic => exact ⟨1, [.panic], by simp [St.log, Res.stat]⟩

theorem persist_eq : persist env opts = M.bind (getEntityChanged env opts) fun cs =>
    M.bind (runHooks env true cs) fun _ => M.bind (putNewID env cs) fun _ => M.bind (makeActions env cs) fun as =>
      M.bind (exec env opts as) fun _ => M.bind (runHooks env false cs) fun _ => recycle cs := rfl

/-- Any save, successful or not: either it executed nothing, or everything up to the writes succeeded and the writes are
a prefix of the batches. -/
theorem persist_writes (s : St) :
    (∃ t, (persist env opts s).2.trace = s.trace ++ t ∧ ∀ a st, Call.exec a st ∉ t) ∨
    ∃ (cs : List (Change Node)) (h1 h2 : Heap) (k m : Nat) (rs : List (Option Model)) (hist : Ptr → Trace) (sts : List Stat)
      (ta : Trace),
      opts.dryRun = false ∧
      entityChanges env opts s = some cs ∧
      List.Forall₂ (Answered env h2) (jobs cs) rs ∧
      (persist env opts s).2.trace = s.trace ++ hookCalls env true cs ++ List.replicate k (.newID .ok) ++
        convCalls (jobs cs) rs ++
        List.zipWith Call.exec ((batches (entries s.snap (jobs cs) rs)).take m) sts ++ ta ∧
      sts.length = ((batches (entries s.snap (jobs cs) rs)).take m).length ∧ (∀ st ∈ sts.dropLast, st = .ok) ∧
      (∀ c ∈ ta, c.IsHook false) ∧
      Assigned env (newNodes cs) { s with heap := h1, trace := s.trace ++ hookCalls env true cs }
        { s with heap := h2, trace := s.trace ++ hookCalls env true cs ++ List.replicate k (.newID .ok) } hist ∧
      (hookCalls env true cs = [] → h1 = s.heap) := by
  -- cut the chain
  have cut : ∀ {α : Type} {p : Call → Prop} {m : M α} {f : α → M Unit} (hp : ∀ a st, ¬ p (.exec a st)) (hd : Does p m) (s : St),
      (∃ t, (M.bind m f s).2.trace = s.trace ++ t ∧ ∀ a st, Call.exec a st ∉ t) ∨
      ∃ a s1, m s = (.ok a, s1) ∧ M.bind m f s = f a s1 := by
    intro α p m f hp hd s
    obtain ⟨t, ht, hpt⟩ := (hd s).trace
    unfold M.bind
    cases hm : m s with
    | mk r s1 =>
      rw [hm] at ht
      cases r with
      | ok a => exact Or.inr ⟨a, s1, rfl, rfl⟩
      | err e => exact Or.inl ⟨t, ht, fun a st h => hp a st (hpt _ h)⟩
      | panic => exact Or.inl ⟨t, ht, fun a st h => hp a st (hpt _ h)⟩
  rw [persist_eq]
  rcases cut (p := fun _ => False) (f := fun cs => M.bind (runHooks env true cs) fun _ => M.bind (putNewID env cs) fun _ =>
      M.bind (makeActions env cs) fun as =>
      M.bind (exec env opts as) fun _ => M.bind (runHooks env false cs) fun _ => recycle cs)
      (by simp) (does_getEntityChanged env opts) s with h | ⟨cs, s0, h0, e0⟩
  · exact Or.inl h
  have h00 : entityChanges env opts s = some cs ∧ s0 = s := by
    unfold getEntityChanged at h0
    split at h0
    · next c hc => simp only [Prod.mk.injEq, Res.ok.injEq] at h0; rw [hc, h0.1]; exact ⟨rfl, h0.2.symm⟩
    · simp at h0
  obtain ⟨hch, rfl⟩ := h00
  rw [e0]
  -- hooks
  rcases cut (f := fun _ => M.bind (putNewID env cs) fun _ => M.bind (makeActions env cs) fun as =>
      M.bind (exec env opts as) fun _ => M.bind (runHooks env false cs) fun _ => recycle cs)
      (by simp [Call.IsHook]) (does_runHooks env true cs) s0 with h | ⟨_, s1, hb, e1⟩
  · exact Or.inl h
  obtain ⟨f1, t1⟩ := runHooks_ok env hb
  rw [e1]
  have lift : ∀ {s' s'' : St} {t0 : Trace}, s'.trace = s0.trace ++ t0 → (∀ a st, Call.exec a st ∉ t0) →
      (∃ t, s''.trace = s'.trace ++ t ∧ ∀ a st, Call.exec a st ∉ t) →
      ∃ t, s''.trace = s0.trace ++ t ∧ ∀ a st, Call.exec a st ∉ t := by
    rintro s' s'' t0 h1 h2 ⟨t, h3, h4⟩
    refine ⟨t0 ++ t, by rw [h3, h1, List.append_assoc], ?_⟩
    intro a st h
    rcases List.mem_append.1 h with h | h
    · exact h2 a st h
    · exact h4 a st h
  have nh : ∀ b a st, Call.exec a st ∉ hookCalls env b cs := by
    intro b a st h
    unfold hookCalls at h
    simp only [List.mem_flatMap, List.mem_filterMap] at h
    obtain ⟨c, _, n, _, h⟩ := h
    cases n with
    | none => simp at h
    | some p =>
      dsimp only at h
      split at h <;> simp at h
  -- ids
  rcases cut (f := fun _ => M.bind (makeActions env cs) fun as =>
      M.bind (exec env opts as) fun _ => M.bind (runHooks env false cs) fun _ => recycle cs)
      (by simp [Call.IsNewID]) (does_putNewID env cs) s1 with h | ⟨_, s2, hi, e2⟩
  · exact Or.inl (lift t1 (nh true) h)
  rw [e2]
  obtain ⟨hist, A⟩ := putNewID_ok env hi
  obtain ⟨k, hk⟩ := A.trace
  have t2 : s2.trace = s0.trace ++ (hookCalls env true cs ++ List.replicate k (.newID .ok)) := by
    rw [hk, t1, List.append_assoc]
  have n2 : ∀ a st, Call.exec a st ∉ hookCalls env true cs ++ List.replicate k (.newID .ok) := by
    intro a st h
    rcases List.mem_append.1 h with h | h
    · exact nh _ _ _ h
    · have := List.eq_of_mem_replicate h; simp at this
  rcases cut (f := fun as => M.bind (exec env opts as) fun _ => M.bind (runHooks env false cs) fun _ => recycle cs)
      (by simp [Call.IsConv]) (does_makeActions env cs) s2 with h | ⟨as, s3, ha, e3⟩
  · exact Or.inl (lift t2 n2 h)
  rw [e3]
  obtain ⟨rs, acc, C, has⟩ := makeActions_ok env ha
  have f2 := A.frame
  have hsnap2 : s2.snap = s0.snap := by rw [f2, f1]
  have hact : as = batches (entries s0.snap (jobs cs) rs) := by
    rw [has, C.acc, hsnap2, actions_eq]
  have t3 : s3.trace = s0.trace ++ hookCalls env true cs ++ List.replicate k (.newID .ok) ++ convCalls (jobs cs) rs := by
    rw [C.st]; simp only [t2, List.append_assoc]
  have hs1 : s1 = { s0 with heap := s1.heap, trace := s0.trace ++ hookCalls env true cs } := by
    rw [← t1]; exact f1
  have hs2 : s2 = { s0 with heap := s2.heap, trace := s0.trace ++ hookCalls env true cs ++ List.replicate k (.newID .ok) } := by
    rw [← t1, ← hk, f2, f1]
  have A' := A
  rw [hs1, hs2] at A'
  have hafter : ∀ s4, ∃ ta, (M.bind (runHooks env false cs) (fun _ => recycle cs) s4).2.trace = s4.trace ++ ta ∧
      ∀ c ∈ ta, c.IsHook false := fun s4 =>
    ((Does.bind (does_runHooks env false cs) (fun _ => does_recycle cs)) s4).trace
  cases hd : opts.dryRun with
  | true =>
    left
    unfold exec
    rw [hd]
    simp only [if_true]
    obtain ⟨ta, h1, h2⟩ := hafter s3
    refine ⟨hookCalls env true cs ++ List.replicate k (.newID .ok) ++ convCalls (jobs cs) rs ++ ta, ?_, ?_⟩
    · have : (M.bind (M.pure ()) (fun _ => M.bind (runHooks env false cs) fun _ => recycle cs) s3) =
        M.bind (runHooks env false cs) (fun _ => recycle cs) s3 := rfl
      rw [this, h1, t3]; simp
    · intro a st h
      rcases List.mem_append.1 h with h | h
      · rcases List.mem_append.1 h with h | h
        · exact n2 a st h
        · unfold convCalls at h
          obtain ⟨_, _, _, h⟩ := mem_zipWith' h
          simp [convCall] at h
      · exact absurd (h2 _ h) (by simp [Call.IsHook])
  | false =>
    right
    obtain ⟨m, sts, h1, h2, h3⟩ := execAll_any env (fun a => M.ext (fun s => env.exec s.trace a) (.exec a)) (fun _ _ => rfl) as s3
    have hx : ∃ ta, (M.bind (exec env opts as) (fun _ => M.bind (runHooks env false cs) fun _ => recycle cs) s3).2.trace =
        s3.trace ++ List.zipWith Call.exec (as.take m) sts ++ ta ∧ ∀ c ∈ ta, c.IsHook false := by
      unfold exec
      rw [hd]
      simp only [Bool.false_eq_true, if_false]
      unfold M.bind
      cases hr : M.forEach as (fun a => M.ext (fun s => env.exec s.trace a) (.exec a)) s3 with
      | mk r s4 =>
        rw [hr] at h1
        simp only at h1
        cases r with
        | ok _ =>
          simp only [M.modify]
          obtain ⟨ta, g1, g2⟩ := hafter { s4 with actions := s4.actions ++ as }
          refine ⟨ta, ?_, g2⟩
          unfold M.bind at g1
          rw [g1, h1]
        | err e => exact ⟨[], by simp [h1], by simp⟩
        | panic => exact ⟨[], by simp [h1], by simp⟩
    obtain ⟨ta, hx1, hx2⟩ := hx
    refine ⟨cs, s1.heap, s2.heap, k, m, rs, hist, sts, ta, rfl, hch, C.ans, ?_, ?_, h3, hx2, A', ?_⟩
    · rw [hx1, t3, hact]
    · rw [h2, hact]
    · exact hooks_nil env hb

end Ddd
