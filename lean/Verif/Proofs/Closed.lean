import Verif.Proofs.Record
/-! Everything listed below a recorded entity is recorded; panics come from calls. -/
set_option linter.unusedVariables false
set_option linter.unusedSimpArgs false
namespace Ddd
open Spec

variable {env : Env} {opts : Opts}

/-- children listed in a record are recorded themselves. -/
def Closed (snap : Node → Option Snap) : Prop :=
  ∀ n sn k cs c, snap n = some sn → (k, cs) ∈ sn.kids → c ∈ cs → (snap c).isSome = true

/-- the calls of `m` are appended to the history, and a panic of `m` is a panic of one of them. -/
def Traced {α : Type} (m : M α) : Prop := ∀ s,
  ∃ t, (m s).2.trace = s.trace ++ t ∧ ((m s).1.stat = .panic → ∃ c ∈ t, Panics c)

theorem Traced.pure {α : Type} (a : α) : Traced (M.pure a) := fun s => ⟨[], by simp [M.pure, Res.stat]⟩

theorem Traced.bind {α β : Type} {m : M α} {f : α → M β} (hm : Traced m) (hf : ∀ a, Traced (f a)) : Traced (M.bind m f) := by
  intro s
  obtain ⟨t1, e1, b1⟩ := hm s
  unfold M.bind
  cases h : m s with
  | mk r s1 =>
    rw [h] at e1 b1
    cases r with
    | ok a =>
      obtain ⟨t2, e2, b2⟩ := hf a s1
      refine ⟨t1 ++ t2, ?_, ?_⟩
      · simp only at e1 ⊢; rw [e2, e1, List.append_assoc]
      · intro hp
        obtain ⟨c, hc, hb⟩ := b2 hp
        exact ⟨c, by simp [hc], hb⟩
    | err e => exact ⟨t1, e1, by simp [Res.stat]⟩
    | panic => exact ⟨t1, e1, fun _ => b1 (by simp [Res.stat])⟩

theorem Traced.forEach {α : Type} {f : α → M Unit} (h : ∀ a, Traced (f a)) (l : List α) : Traced (M.forEach l f) := by
  induction l with
  | nil => exact Traced.pure ()
  | cons a l ih => exact Traced.bind (h a) fun _ => ih

theorem traced_snapshotVisit (v : Visit Node) : Traced (snapshotVisit env v) := by
  intro s
  unfold snapshotVisit convert
  split
  · exact ⟨[], by simp [Res.stat]⟩
  · dsimp only
    cases env.conv s.trace s.heap v.entity v.parent .query with
    | panic => exact ⟨_, rfl, fun _ => ⟨_, List.mem_singleton.2 rfl, rfl⟩⟩
    | ok m => exact ⟨_, rfl, by simp [Res.stat]⟩
    | err e =>
      dsimp only
      split
      · exact ⟨_, rfl, by simp [Res.stat]⟩
      · exact ⟨_, rfl, by simp [Res.stat]⟩

theorem traced_updateSnapshot : Traced (updateSnapshot env) := fun s => Traced.forEach traced_snapshotVisit _ s

theorem traced_extH {ans : St → Heap × Res Unit} {mk : Stat → Call} (h : Panics (mk .panic)) : Traced (M.extH ans mk) := by
  intro s
  refine ⟨[mk (ans s).2.stat], rfl, fun hp => ⟨_, List.mem_singleton.2 rfl, ?_⟩⟩
  have hp : (ans s).2.stat = .panic := hp
  rw [hp]; exact h

theorem traced_buildEntity (r : Ptr) : Traced (buildEntity env r) := by
  intro s
  unfold buildEntity
  split
  · exact ⟨[], by simp [Res.stat]⟩
  · exact traced_extH (by simp [Panics]) s

/-- `m` keeps records closed and a panic of `m` is a panic of one of its calls. -/
def Safe {α : Type} (m : M α) : Prop := ∀ s, Closed s.snap →
  (∃ t, (m s).2.trace = s.trace ++ t ∧ ((m s).1.stat = .panic → ∃ c ∈ t, Panics c)) ∧
  ((m s).1.stat ≠ .panic → Closed (m s).2.snap)

namespace Safe
variable {α β : Type}

theorem pure (a : α) : Safe (M.pure a) := fun s h => ⟨Traced.pure a s, fun _ => h⟩

theorem bind {m : M α} {f : α → M β} (hm : Safe m) (hf : ∀ a, Safe (f a)) : Safe (M.bind m f) := by
  intro s hs
  obtain ⟨⟨t1, e1, b1⟩, k1⟩ := hm s hs
  unfold M.bind
  cases h : m s with
  | mk r s1 =>
    rw [h] at e1 b1 k1
    cases r with
    | ok a =>
      obtain ⟨⟨t2, e2, b2⟩, k2⟩ := hf a s1 (k1 (by simp [Res.stat]))
      refine ⟨⟨t1 ++ t2, ?_, ?_⟩, k2⟩
      · simp only at e1 ⊢; rw [e2, e1, List.append_assoc]
      · intro hp
        obtain ⟨c, hc, hb⟩ := b2 hp
        exact ⟨c, by simp [hc], hb⟩
    | err e => exact ⟨⟨t1, e1, by simp [Res.stat]⟩, fun _ => k1 (by simp [Res.stat])⟩
    | panic => exact ⟨⟨t1, e1, fun _ => b1 (by simp [Res.stat])⟩, by simp [Res.stat]⟩

theorem attempt {m : M Unit} (hm : Safe m) : Safe (M.attempt m) := by
  intro s hs
  obtain ⟨⟨t1, e1, b1⟩, k1⟩ := hm s hs
  unfold M.attempt
  cases h : m s with
  | mk r s1 =>
    rw [h] at e1 b1 k1
    cases r with
    | ok a => exact ⟨⟨t1, e1, by simp [Res.stat]⟩, fun _ => k1 (by simp [Res.stat])⟩
    | err e => exact ⟨⟨t1, e1, by simp [Res.stat]⟩, fun _ => k1 (by simp [Res.stat])⟩
    | panic => exact ⟨⟨t1, e1, fun _ => b1 (by simp [Res.stat])⟩, by simp [Res.stat]⟩

theorem forEach {f : α → M Unit} (hf : ∀ a, Safe (f a)) (l : List α) : Safe (M.forEach l f) := by
  induction l with
  | nil => exact pure ()
  | cons a l ih => exact bind (hf a) fun _ => ih

/-- code that does not touch the records. -/
theorem of {m : M α} (h1 : Traced m) (h2 : ∀ s, (m s).2.snap = s.snap) : Safe m :=
  fun s hs => ⟨h1 s, fun _ => by rw [h2]; exact hs⟩

end Safe

theorem snapshotVisit_noerr (hl : LoadsModels env) (v : Visit Node) (s s' : St) (e : Err) : snapshotVisit env v s ≠ (.err e, s') := by
  intro h
  unfold snapshotVisit convert at h
  split at h
  · simp at h
  · dsimp only at h
    cases hc : env.conv s.trace s.heap v.entity v.parent .query with
    | panic => rw [hc] at h; simp at h
    | ok m => rw [hc] at h; simp at h
    | err e' =>
      rw [hc] at h
      have := hl _ _ _ _ _ hc
      subst this
      simp [Err.swappedIs] at h

theorem updateSnapshot_noerr (hl : LoadsModels env) (s s' : St) (e : Err) : updateSnapshot env s ≠ (.err e, s') := by
  unfold updateSnapshot
  generalize walk s.graph (env.ord s.trace 1) none none = l
  intro h
  induction l generalizing s with
  | nil => simp [M.forEach, M.pure] at h
  | cons v l ih =>
    simp only [M.forEach, M.bind] at h
    cases hv : snapshotVisit env v s with
    | mk r s1 =>
      rw [hv] at h
      cases r with
      | ok a => exact ih _ h
      | err e' => exact snapshotVisit_noerr hl _ _ _ _ hv
      | panic => simp at h

theorem safe_updateSnapshot (hl : LoadsModels env) : Safe (updateSnapshot env) := by
  intro s hs
  refine ⟨traced_updateSnapshot s, ?_⟩
  intro hp
  cases hr : updateSnapshot env s with
  | mk r s' =>
    rw [hr] at hp
    cases r with
    | panic => simp [Res.stat] at hp
    | err e => exact absurd hr (updateSnapshot_noerr hl _ _ _)
    | ok a =>
      obtain ⟨h1, h2, h3, h4⟩ := updateSnapshot_ok hr
      have mono : ∀ c, (s.snap c).isSome = true → (s'.snap c).isSome = true := by
        intro c hc
        cases c with
        | none => exact updateSnapshot_all hr .root
        | some p =>
          obtain ⟨sn, hsn⟩ := Option.isSome_iff_exists.1 hc
          rw [h4 _ sn (by simp) hsn]; rfl
      intro n sn k cs c hn hk hc
      by_cases hre : Reach s.graph.kids none n
      · by_cases ho : n = none ∨ s.snap n = none
        · obtain ⟨sn', h5, h6⟩ := h2 n hre ho
          simp only at hn
          rw [h5] at hn
          obtain rfl := Option.some.inj hn
          rw [h6.1] at hk
          exact updateSnapshot_all hr (.step hre ⟨k, cs, hk, hc⟩)
        · simp only [not_or] at ho
          cases ho2 : s.snap n with
          | none => exact absurd ho2 ho.2
          | some sn' =>
            have := h4 n sn' ho.1 ho2
            simp only at hn
            rw [this] at hn
            obtain rfl := Option.some.inj hn
            exact mono c (hs n sn' k cs c ho2 hk hc)
      · simp only at hn
        rw [h3 n hre] at hn
        exact mono c (hs n sn k cs c hn hk hc)

theorem closed_empty : Closed (fun _ => none) := by intro n sn k cs c h; simp at h

theorem safe_flush (hl : LoadsModels env) : Safe (flush env) := by
  intro s _
  exact safe_updateSnapshot hl { s with snap := fun _ => none } closed_empty

theorem safe_unDirty : Safe (unDirty env) := by
  intro s hs
  obtain ⟨h', e, _⟩ := unDirty_effect (env := env) s
  rw [e]
  exact ⟨⟨[], by simp [Res.stat]⟩, fun _ => hs⟩

/-- why a piece of code that leaves the records alone panicked: one of its calls did, or `X` (about the records). -/
def PCause (X : (Node → Option Snap) → Prop) {α : Type} (m : M α) : Prop := ∀ s,
  (∃ t, (m s).2.trace = s.trace ++ t ∧ ((m s).1.stat = .panic → (∃ c ∈ t, Panics c) ∨ X s.snap)) ∧ (m s).2.snap = s.snap

namespace PCause
variable {X : (Node → Option Snap) → Prop} {α β : Type}

theorem pure (a : α) : PCause X (M.pure a) := fun s => ⟨⟨[], by simp [M.pure, Res.stat]⟩, rfl⟩

theorem bind {m : M α} {f : α → M β} (hm : PCause X m) (hf : ∀ a, PCause X (f a)) : PCause X (M.bind m f) := by
  intro s
  obtain ⟨⟨t1, e1, b1⟩, k1⟩ := hm s
  unfold M.bind
  cases h : m s with
  | mk r s1 =>
    rw [h] at e1 b1 k1
    cases r with
    | ok a =>
      obtain ⟨⟨t2, e2, b2⟩, k2⟩ := hf a s1
      refine ⟨⟨t1 ++ t2, ?_, ?_⟩, k2.trans k1⟩
      · simp only at e1 ⊢; rw [e2, e1, List.append_assoc]
      · intro hne
        rcases b2 hne with ⟨c, hc, hb⟩ | hx
        · exact .inl ⟨c, by simp [hc], hb⟩
        · right; simp only at k1; rw [← k1]; exact hx
    | err e => exact ⟨⟨t1, e1, by simp [Res.stat]⟩, k1⟩
    | panic => exact ⟨⟨t1, e1, fun _ => b1 (by simp [Res.stat])⟩, k1⟩

theorem forEach {f : α → M Unit} {l : List α} (hf : ∀ a ∈ l, PCause X (f a)) : PCause X (M.forEach l f) := by
  induction l with
  | nil => exact pure ()
  | cons a l ih => exact bind (hf a (by simp)) fun _ => ih fun x hx => hf x (by simp [hx])

theorem ext {ans : St → Res α} {mk : Stat → Call} (h : Panics (mk .panic)) : PCause X (M.ext ans mk) := by
  intro s
  refine ⟨⟨[mk (ans s).stat], rfl, fun hne => .inl ⟨_, List.mem_singleton.2 rfl, ?_⟩⟩, rfl⟩
  have hp : (ans s).stat = .panic := hne
  rw [hp]; exact h

theorem extH {ans : St → Heap × Res Unit} {mk : Stat → Call} (h : Panics (mk .panic)) : PCause X (M.extH ans mk) := by
  intro s
  refine ⟨⟨[mk (ans s).2.stat], rfl, fun hne => .inl ⟨_, List.mem_singleton.2 rfl, ?_⟩⟩, rfl⟩
  have hp : (ans s).2.stat = .panic := hne
  rw [hp]; exact h

theorem modify {f : St → St} (h : ∀ s, (f s).trace = s.trace ∧ (f s).snap = s.snap) : PCause X (M.modify f) := by
  intro s
  exact ⟨⟨[], by simp [M.modify, (h s).1, Res.stat]⟩, (h s).2⟩

end PCause

theorem pcause_runHooks {X} (b cs) : PCause X (runHooks env b cs) := by
  refine PCause.forEach fun c _ => PCause.forEach fun n _ => ?_
  intro s
  unfold execHook
  cases n with
  | none => exact PCause.pure () s
  | some p =>
    dsimp only
    split
    · exact PCause.extH (by simp [Panics]) s
    · exact PCause.pure () s

theorem pcause_putNewID {X} (cs) : PCause X (putNewID env cs) := by
  refine PCause.forEach fun c _ => ?_
  split
  · refine PCause.forEach fun n _ => ?_
    intro s
    unfold putID
    cases n with
    | none => exact PCause.pure () s
    | some p =>
      dsimp only
      split
      · refine PCause.bind (PCause.ext (by simp [Panics])) (fun id => PCause.modify ?_) s
        exact fun _ => ⟨rfl, rfl⟩
      · exact PCause.pure () s
  · exact PCause.pure ()

theorem pcause_actStep {X : (Node → Option Snap) → Prop} (c n acc)
    (hX : ∀ snap : Node → Option Snap, c.ctype.op = .update → snap n = none → X snap) : PCause X (actStep env c n acc) := by
  intro s
  unfold actStep convert
  dsimp only
  generalize hr : env.conv s.trace s.heap n (some c.parent) c.ctype.op = r
  cases r with
  | panic => exact ⟨⟨_, rfl, fun _ => .inl ⟨_, List.mem_singleton.2 rfl, rfl⟩⟩, rfl⟩
  | err e =>
    dsimp only
    split
    · exact ⟨⟨_, rfl, by simp [Res.stat]⟩, rfl⟩
    · exact ⟨⟨_, rfl, by simp [Res.stat]⟩, rfl⟩
  | ok m =>
    dsimp only
    split
    · next hu =>
      cases hsn : s.snap n with
      | none =>
        rw [show (St.log s _).snap n = s.snap n from rfl, hsn]
        exact ⟨⟨_, rfl, fun _ => .inr (hX _ hu hsn)⟩, rfl⟩
      | some sn =>
        rw [show (St.log s _).snap n = s.snap n from rfl, hsn]
        exact ⟨⟨_, rfl, by simp [Res.stat]⟩, rfl⟩
    · exact ⟨⟨_, rfl, by simp [Res.stat]⟩, rfl⟩

theorem pcause_makeActions (cs) : PCause (Untracked cs) (makeActions env cs) := by
  refine PCause.bind ?_ fun _ => PCause.pure _
  suffices H : ∀ l : List (Change Node), (∀ c ∈ l, c ∈ cs) → ∀ acc, PCause (Untracked cs) (actLoops env l acc) from H cs (fun _ h => h) _
  intro l
  induction l with
  | nil => intro _ acc; exact PCause.pure acc
  | cons c l ih =>
    intro hl acc
    refine PCause.bind ?_ fun acc => ih (fun x hx => hl x (by simp [hx])) acc
    suffices H : ∀ ns : List Node, (∀ n ∈ ns, n ∈ c.children) → ∀ acc, PCause (Untracked cs) (actLoop env c ns acc) from
      H _ (fun _ h => h) _
    intro ns
    induction ns with
    | nil => intro _ acc; exact PCause.pure acc
    | cons n ns ih2 =>
      intro hn acc
      refine PCause.bind (pcause_actStep c n acc ?_) fun acc => ih2 (fun x hx => hn x (by simp [hx])) acc
      intro snap hu hs
      refine ⟨n, c.parent, ?_, hs⟩
      rw [← hu]
      unfold Spec.jobs
      exact List.mem_flatMap.2 ⟨c, hl c (by simp), List.mem_map.2 ⟨n, hn n (by simp), rfl⟩⟩

theorem pcause_exec {X} (as) : PCause X (exec env opts as) := by
  unfold exec
  split
  · exact PCause.pure ()
  · exact PCause.bind (PCause.forEach fun a _ => PCause.ext (by simp [Panics])) fun _ =>
      PCause.modify fun _ => ⟨rfl, rfl⟩

/-- in closed records an update always finds its record. -/
theorem tracked_of_closed {s : St} {cs : List (Change Node)} (hc : entityChanges env opts s = some cs) (hcl : Closed s.snap)
    {n p : Node} (hj : (⟨n, p, .update⟩ : Job) ∈ jobs cs) : (s.snap n).isSome = true := by
  have hhad : ∀ q k c, Had s.kidPool q k c → (s.snap c).isSome = true := by
    rintro q k c ⟨f, l, h1, h2, h3⟩
    unfold St.kidPool at h1
    obtain ⟨sn, h4, rfl⟩ := Option.map_eq_some_iff.1 h1
    exact hcl q sn k l c h4 h2 h3
  rcases (changes_jobs env opts hc .update p n).1 hj with ⟨k, h⟩ | ⟨_, q, k, h⟩
  · exact hhad _ _ _ h.2.2.1
  · exact hhad _ _ _ h.2.2.1

theorem persist_snap (s : St) : (persist env opts s).2.snap = s.snap := by
  rw [persist_eq, M.bind_run]
  unfold getEntityChanged
  cases hc : entityChanges env opts s with
  | none => rfl
  | some cs =>
    exact ((PCause.bind (pcause_runHooks _ _) fun _ => PCause.bind (pcause_putNewID _) fun _ =>
        PCause.bind (pcause_makeActions _) fun _ => PCause.bind (pcause_exec _) fun _ =>
        PCause.bind (pcause_runHooks _ _) fun _ => PCause.modify fun _ => ⟨rfl, rfl⟩ :
      PCause (Untracked cs) (M.bind (runHooks env true cs) fun _ => M.bind (putNewID env cs) fun _ =>
        M.bind (makeActions env cs) fun as => M.bind (exec env opts as) fun _ =>
        M.bind (runHooks env false cs) fun _ => recycle cs)) s).2

theorem safe_persist : Safe (persist env opts) := by
  intro s hs
  refine ⟨?_, fun _ => by rw [persist_snap]; exact hs⟩
  rw [persist_eq, M.bind_run]
  unfold getEntityChanged
  cases hc : entityChanges env opts s with
  | none => exact ⟨[], by simp [Res.stat]⟩
  | some cs =>
    have key : PCause (Untracked cs) (M.bind (runHooks env true cs) fun _ => M.bind (putNewID env cs) fun _ =>
        M.bind (makeActions env cs) fun as => M.bind (exec env opts as) fun _ =>
        M.bind (runHooks env false cs) fun _ => recycle cs) :=
      PCause.bind (pcause_runHooks _ _) fun _ => PCause.bind (pcause_putNewID _) fun _ =>
        PCause.bind (pcause_makeActions _) fun _ => PCause.bind (pcause_exec _) fun _ =>
        PCause.bind (pcause_runHooks _ _) fun _ => PCause.modify fun _ => ⟨rfl, rfl⟩
    obtain ⟨⟨t, e, b⟩, _⟩ := key s
    refine ⟨t, e, fun hp => ?_⟩
    rcases b hp with h | ⟨n, p, hj, hn⟩
    · exact h
    · have := tracked_of_closed hc hs hj
      rw [hn] at this; simp at this

theorem commitSave_eq : commitSave env opts = M.bind (persist env opts) fun _ => M.bind (flush env) fun _ => unDirty env := by
  unfold commitSave; with_unfolding_all rfl

theorem safe_commitSave (hl : LoadsModels env) : Safe (commitSave env opts) := by
  rw [commitSave_eq]
  exact Safe.bind safe_persist fun _ => Safe.bind (safe_flush hl) fun _ => safe_unDirty

theorem safe_containerAdd (r) : Safe (containerAdd r) := by
  refine Safe.of (fun s => ?_) (fun s => ?_) <;> unfold containerAdd <;> split
  · exact ⟨[], by simp [Res.stat]⟩
  · exact ⟨[], by simp [Res.stat]⟩
  · rfl
  · rfl

theorem safe_containerRemove (r) : Safe (containerRemove r) := by
  refine Safe.of (fun s => ?_) (fun s => ?_) <;> unfold containerRemove <;> split
  · exact ⟨[], by simp [Res.stat]⟩
  · exact ⟨[], by simp [Res.stat]⟩
  · rfl
  · rfl

theorem safe_buildEntity (r) : Safe (buildEntity env r) := by
  refine Safe.of (traced_buildEntity r) (fun s => ?_)
  unfold buildEntity
  split <;> rfl

theorem safe_repoGet (hl : LoadsModels env) (r) : Safe (repoGet env r) := by
  intro s hs
  unfold repoGet
  split
  · exact ⟨⟨[], by simp [Res.stat]⟩, fun _ => hs⟩
  · exact Safe.bind (m := buildEntity env r) (safe_buildEntity r)
      (fun _ => Safe.bind (m := containerAdd r) (safe_containerAdd r) fun _ => safe_updateSnapshot hl) s hs

theorem safe_customAdd (r) : Safe (customAdd r) := by
  intro s hs
  unfold customAdd
  split
  · exact ⟨⟨[], by simp [Res.stat]⟩, fun _ => hs⟩
  · exact safe_containerAdd r s hs

theorem safe_repoCustomGet (hl : LoadsModels env) (g rs) : Safe (repoCustomGet env g rs) := by
  unfold repoCustomGet
  refine Safe.bind (m := M.modify fun s => { s with heap := g s.heap }) ?_ fun _ =>
    Safe.bind (m := M.forEach rs customAdd) (Safe.forEach safe_customAdd rs) fun _ => safe_updateSnapshot hl
  exact Safe.of (fun s => ⟨[], by simp [M.modify, Res.stat]⟩) fun s => rfl

theorem repoAdd_snap (rs : List Ptr) (s : St) : (repoAdd rs s).1 = .ok () ∧ (repoAdd rs s).2.snap = s.snap ∧ (repoAdd rs s).2.trace = s.trace := by
  induction rs generalizing s with
  | nil => exact ⟨rfl, rfl, rfl⟩
  | cons r rs ih =>
    unfold repoAdd containerAdd
    split
    · exact ⟨rfl, rfl, rfl⟩
    · by_cases h : r ∈ s.roots
      · simp only [h, if_true]; exact ⟨rfl, rfl, rfl⟩
      · simp only [h, if_false]
        exact ih _

theorem repoRemoveLoop_snap (rs : List Ptr) (s : St) :
    (repoRemoveLoop rs s).1 = .ok () ∧ (repoRemoveLoop rs s).2.snap = s.snap ∧ (repoRemoveLoop rs s).2.trace = s.trace := by
  induction rs generalizing s with
  | nil => exact ⟨rfl, rfl, rfl⟩
  | cons r rs ih =>
    unfold repoRemoveLoop containerRemove
    by_cases h : r ∈ s.roots
    · simp only [h, if_true]; exact ih _
    · simp only [h, if_false]; exact ⟨rfl, rfl, rfl⟩

theorem safe_repoAdd (rs) : Safe (repoAdd rs) :=
  Safe.of (fun s => ⟨[], by simp [(repoAdd_snap rs s).1, (repoAdd_snap rs s).2.2, Res.stat]⟩) fun s => (repoAdd_snap rs s).2.1

theorem safe_repoRemoveLoop (rs) : Safe (repoRemoveLoop rs) :=
  Safe.of (fun s => ⟨[], by simp [(repoRemoveLoop_snap rs s).1, (repoRemoveLoop_snap rs s).2.2, Res.stat]⟩)
    fun s => (repoRemoveLoop_snap rs s).2.1

theorem safe_repoRemove (hl : LoadsModels env) (rs) : Safe (repoRemove env rs) := by
  intro s hs
  unfold repoRemove
  dsimp only
  split
  · exact safe_repoRemoveLoop rs s hs
  · obtain ⟨a1, a2, a3⟩ := repoAdd_snap (rs.filter fun r => decide (r ∉ s.roots)) s
    generalize hx : repoAdd (rs.filter fun r => decide (r ∉ s.roots)) s = x at a1 a2 a3
    obtain ⟨r1, s1⟩ := x
    simp only at a1 a2 a3
    subst a1
    dsimp only
    obtain ⟨⟨t, e, b⟩, k⟩ := safe_updateSnapshot hl s1 (by rw [a2]; exact hs)
    cases hu : updateSnapshot env s1 with
    | mk r s2 =>
      rw [hu] at e b k
      simp only at e
      rw [a3] at e
      cases r with
      | panic => exact ⟨⟨t, e, fun _ => b rfl⟩, by simp [Res.stat]⟩
      | err er => exact ⟨⟨t, e, by simp [appendErr, M.modify, Res.stat]⟩, fun _ => k (by simp [Res.stat])⟩
      | ok _ =>
        dsimp only
        obtain ⟨⟨t2, e2, b2⟩, k2⟩ := safe_repoRemoveLoop rs s2 (k (by simp [Res.stat]))
        refine ⟨⟨t ++ t2, by rw [e2, e, List.append_assoc], fun hp => ?_⟩, k2⟩
        obtain ⟨c, hc, hb⟩ := b2 hp
        exact ⟨c, by simp [hc], hb⟩

theorem safe_repoSave (hl : LoadsModels env) : Safe (repoSave env opts) := by
  intro s hs
  unfold repoSave
  split
  · exact ⟨⟨[], by simp [Res.stat]⟩, fun _ => hs⟩
  · exact safe_commitSave hl s hs

theorem safe_enterRoots (hl : LoadsModels env) (rs) : Safe (enterRoots env rs) := by
  intro s hs
  unfold enterRoots
  split
  · exact ⟨⟨[], by simp [Res.stat]⟩, fun _ => hs⟩
  · exact safe_flush hl { s with roots := rs } hs

/-- user code: a panic is one of a call, or user code itself panics. -/
theorem safe_runProg (hl : LoadsModels env) (p : Prog) : ∀ s, Closed s.snap →
    (∃ t, (runProg env opts p s).2.trace = s.trace ++ t ∧ ((runProg env opts p s).1.stat = .panic →
      (∃ c ∈ t, Panics c) ∨ ∃ s', Visits env opts p s .panic s')) ∧
    ((runProg env opts p s).1.stat ≠ .panic → Closed (runProg env opts p s).2.snap) := by
  have step : ∀ {α : Type} (m : M α) (k : α → Prog) (p : Prog), Safe m → (∀ a s s', m s = (.ok a, s') → Next env opts p s (k a) s') →
      (∀ a s, Closed s.snap → (∃ t, (runProg env opts (k a) s).2.trace = s.trace ++ t ∧ ((runProg env opts (k a) s).1.stat = .panic →
        (∃ c ∈ t, Panics c) ∨ ∃ s', Visits env opts (k a) s .panic s')) ∧
        ((runProg env opts (k a) s).1.stat ≠ .panic → Closed (runProg env opts (k a) s).2.snap)) →
      ∀ s, Closed s.snap → (∃ t, (M.bind m (fun a => runProg env opts (k a)) s).2.trace = s.trace ++ t ∧
        ((M.bind m (fun a => runProg env opts (k a)) s).1.stat = .panic → (∃ c ∈ t, Panics c) ∨ ∃ s', Visits env opts p s .panic s')) ∧
        ((M.bind m (fun a => runProg env opts (k a)) s).1.stat ≠ .panic → Closed (M.bind m (fun a => runProg env opts (k a)) s).2.snap) := by
    intro α m k p hm hn ih s hs
    obtain ⟨⟨t1, e1, b1⟩, k1⟩ := hm s hs
    unfold M.bind
    cases h : m s with
    | mk r s1 =>
      rw [h] at e1 b1 k1
      cases r with
      | ok a =>
        obtain ⟨⟨t2, e2, b2⟩, k2⟩ := ih a s1 (k1 (by simp [Res.stat]))
        refine ⟨⟨t1 ++ t2, ?_, ?_⟩, k2⟩
        · simp only at e1 ⊢; rw [e2, e1, List.append_assoc]
        · intro hp
          rcases b2 hp with ⟨c, hc, hb⟩ | ⟨s', hv⟩
          · exact .inl ⟨c, by simp [hc], hb⟩
          · exact .inr ⟨s', .step (hn a s s1 h) hv⟩
      | err e => exact ⟨⟨t1, e1, by simp [Res.stat]⟩, fun _ => k1 (by simp [Res.stat])⟩
      | panic => exact ⟨⟨t1, e1, fun _ => .inl (b1 (by simp [Res.stat]))⟩, by simp [Res.stat]⟩
  induction p with
  | ret r =>
    intro s hs
    cases r with
    | none => exact ⟨⟨[], by simp [runProg, M.pure, Res.stat]⟩, fun _ => hs⟩
    | some e => exact ⟨⟨[], by simp [runProg, M.fail, Res.stat]⟩, fun _ => hs⟩
  | panic => intro s hs; exact ⟨⟨[], by simp [runProg, M.crash], fun _ => .inr ⟨s, .here _ _⟩⟩, by simp [runProg, M.crash, Res.stat]⟩
  | mutate f k ih =>
    intro s hs
    obtain ⟨⟨t, e, b⟩, k1⟩ := ih { s with heap := f s.heap } hs
    refine ⟨⟨t, e, fun hp => ?_⟩, k1⟩
    rcases b hp with h | ⟨s', hv⟩
    · exact .inl h
    · exact .inr ⟨s', .step (.mutate f k s) hv⟩
  | look k ih =>
    intro s hs
    obtain ⟨⟨t, e, b⟩, k1⟩ := ih s.heap s hs
    refine ⟨⟨t, e, fun hp => ?_⟩, k1⟩
    rcases b hp with h | ⟨s', hv⟩
    · exact .inl h
    · exact .inr ⟨s', .step (.look k s) hv⟩
  | output v k ih =>
    intro s hs
    obtain ⟨⟨t, e, b⟩, k1⟩ := ih { s with output := v } hs
    refine ⟨⟨t, e, fun hp => ?_⟩, k1⟩
    rcases b hp with h | ⟨s', hv⟩
    · exact .inl h
    · exact .inr ⟨s', .step (.output v k s) hv⟩
  | get r k ih => simp only [runProg]; exact step (M.attempt (repoGet env r)) k (.get r k) (safe_repoGet hl r).attempt (fun a s s' h => .get h) ih
  | customGet g rs k ih => simp only [runProg]; exact step (M.attempt (repoCustomGet env g rs)) k (.customGet g rs k) (safe_repoCustomGet hl g rs).attempt (fun a s s' h => .customGet h) ih
  | add rs k ih => simp only [runProg]; exact step (repoAdd rs) (fun _ => k) (.add rs k) (safe_repoAdd rs) (fun a s s' h => .add h) fun _ => ih
  | remove rs k ih => simp only [runProg]; exact step (repoRemove env rs) (fun _ => k) (.remove rs k) (safe_repoRemove hl rs) (fun a s s' h => .remove h) fun _ => ih
  | save k ih => simp only [runProg]; exact step (M.attempt (repoSave env opts)) k (.save k) (safe_repoSave hl).attempt (fun a s s' h => .save h) ih
  | commit k ih => simp only [runProg]; exact step (M.attempt (commitSave env opts)) k (.commit k) (safe_commitSave hl).attempt (fun a s s' h => .commit h) ih
  | build r k ih => simp only [runProg]; exact step (M.attempt (buildEntity env r)) k (.build r k) (safe_buildEntity r).attempt (fun a s s' h => .build h) ih
  | enter rs k ih => simp only [runProg]; exact step (enterRoots env rs) (fun _ => k) (.enter rs k) (safe_enterRoots hl rs) (fun a s s' h => .enter h) fun _ => ih
  | cAdd r k ih => simp only [runProg]; exact step (M.attempt (containerAdd r)) (fun _ => k) (.cAdd r k) (safe_containerAdd r).attempt (fun a s s' h => .cAdd h) fun _ => ih
  | cRemove r k ih => simp only [runProg]; exact step (M.attempt (containerRemove r)) (fun _ => k) (.cRemove r k) (safe_containerRemove r).attempt (fun a s s' h => .cRemove h) fun _ => ih

theorem Safe.ok {α : Type} {m : M α} (hm : Safe m) {s s' : St} {a : α} (hs : Closed s.snap) (h : m s = (.ok a, s')) : Closed s'.snap := by
  have := (hm s hs).2
  rw [h] at this
  exact this (by simp [Res.stat])

theorem closed_next (hl : LoadsModels env) {p p' : Prog} {s s' : St} (h : Next env opts p s p' s') (hs : Closed s.snap) : Closed s'.snap := by
  cases h with
  | mutate => exact hs
  | look => exact hs
  | output => exact hs
  | get h => exact (safe_repoGet hl _).attempt.ok hs h
  | customGet h => exact (safe_repoCustomGet hl _ _).attempt.ok hs h
  | add h => exact (safe_repoAdd _).ok hs h
  | remove h => exact (safe_repoRemove hl _).ok hs h
  | save h => exact (safe_repoSave hl).attempt.ok hs h
  | commit h => exact (safe_commitSave hl).attempt.ok hs h
  | build h => exact (safe_buildEntity _).attempt.ok hs h
  | enter h => exact (safe_enterRoots hl _).ok hs h
  | cAdd h => exact (safe_containerAdd _).attempt.ok hs h
  | cRemove h => exact (safe_containerRemove _).attempt.ok hs h

theorem closed_visits (hl : LoadsModels env) {p p' : Prog} {s s' : St} (h : Visits env opts p s p' s') (hs : Closed s.snap) : Closed s'.snap := by
  induction h with
  | here => exact hs
  | step h _ ih => exact ih (closed_next hl h hs)

end Ddd
