import Verif.Proofs.Closed
import Verif.Proofs.Command
import Verif.Props.Misuse
/-!
# C02, C10, C11, C62: what is remembered of an aggregate
-/
set_option linter.unusedVariables false
set_option linter.unusedSimpArgs false
namespace Ddd
open Spec

variable {env : Env} {opts : Opts} {c : Cmd} {h : Heap}

/-! ## C02 -/

/-- the aggregate after a successful save is recorded as it is and nothing is marked dirty. -/
theorem saved_state {s s1 : St} (h : commitSave env opts s = (.ok (), s1)) :
    (∀ n, Reach s1.graph.kids none n → ∃ sn, s1.snap n = some sn ∧ sn.kids = s1.graph.kids n) ∧
    (∀ n, Reach s1.graph.kids none n → s1.heap.dirtyNode n = false) ∧
    (∃ h0 : Heap, h0.kids = s1.heap.kids ∧ (∀ p, { h0.attr p with dirty := false } = { s1.heap.attr p with dirty := false }) ∧
      ∀ n, Reach s1.graph.kids none n → ∃ sn, s1.snap n = some sn ∧ Faithful env h0 s1.graph.kids n sn) ∧
    (∀ n, ¬ Reach s1.graph.kids none n → s1.snap n = none) := by
  obtain ⟨sa, sb, h1, h2, h3⟩ := commitSave_ok h
  obtain ⟨f1, f2, f3⟩ := flush_ok h2
  obtain ⟨h', u1, u2, u3, u4, u5⟩ := unDirty_effect (env := env) sb
  rw [h3] at u1
  simp only [Prod.mk.injEq, true_and] at u1
  have hg : s1.graph.kids = sb.graph.kids := by
    rw [u1]; unfold St.graph stageGraph; simp only; rw [u2]
  have hg2 : sb.graph.kids = sa.graph.kids := by rw [f1]; rfl
  have hs : s1.snap = sb.snap := by rw [u1]
  rw [hg, hg2, hs]
  refine ⟨?_, ?_, ⟨sa.heap, ?_, ?_, f2⟩, f3⟩
  · intro n hn
    obtain ⟨sn, e1, e2⟩ := f2 n hn
    exact ⟨sn, e1, e2.1⟩
  · intro n hn
    cases n with
    | none => rfl
    | some p =>
      unfold Heap.dirtyNode
      rw [u1]
      simp only
      rw [u4 p (by rw [hg2]; exact hn)]
  · rw [u1]; simp only; rw [u2, f1]
  · intro p
    rw [u1]; simp only
    by_cases hr : Reach sb.graph.kids none (some p)
    · rw [u4 p hr, f1]
    · rw [u5 p hr, f1]

/-- **C02** After a successful save (`Repository.Save`, `StageAgent.Commit`), a save of the same aggregate finds nothing to do: it succeeds without
any call and without changing anything. -/
theorem C02_second_save_silent {s s1 : St} (h : commitSave env opts s = (.ok (), s1)) : persist env opts s1 = (.ok (), s1) := by
  obtain ⟨h1, h2, _⟩ := saved_state h
  exact persist_nothing h1 h2

theorem persist_log {s1 : St} (x : Call) (h1 : ∀ n, Reach s1.graph.kids none n → ∃ sn, s1.snap n = some sn ∧ sn.kids = s1.graph.kids n)
    (h2 : ∀ n, Reach s1.graph.kids none n → s1.heap.dirtyNode n = false) : persist env opts (s1.log x) = (.ok (), s1.log x) :=
  persist_nothing (s := s1.log x) h1 h2

/-- a conversion asked for in order to remember an entity. -/
def IsLoad : Call → Prop
  | .conv _ _ .query _ _ => True
  | _ => False

theorem does_snapshotVisit_load (v : Visit Node) : Does IsLoad (snapshotVisit env v) := by
  intro s
  unfold snapshotVisit convert
  split
  · exact .refl s
  · dsimp only
    cases env.conv s.trace s.heap v.entity v.parent .query with
    | panic => exact ⟨⟨_, rfl, by simp [IsLoad]⟩, rfl, List.prefix_refl _⟩
    | ok m => exact ⟨⟨_, rfl, by simp [IsLoad]⟩, rfl, List.prefix_refl _⟩
    | err e =>
      dsimp only
      split
      · exact ⟨⟨_, rfl, by simp [IsLoad]⟩, rfl, List.prefix_refl _⟩
      · exact ⟨⟨_, rfl, by simp [IsLoad]⟩, rfl, List.prefix_refl _⟩

theorem does_flush_load : Does IsLoad (flush env) := fun s =>
  let ⟨a, b, c⟩ := Does.forEach does_snapshotVisit_load (walk s.graph (env.ord s.trace 1) none none) { s with snap := fun _ => none }
  ⟨a, b, c⟩

/-- **C02** Two successive saves through the repository: the second executes no write, calls no hook, generates no ID; it only asks the converter for
the models it remembers. -/
theorem C02_repository_save_again {s s1 : St} (h : repoSave env opts s = (.ok (), s1)) :
    ∃ t, (repoSave env opts s1).2.trace = s1.trace ++ t ∧ (∀ x ∈ t, IsLoad x) ∧ asked t = [] ∧ written t = [] := by
  have hc : commitSave env opts s = (.ok (), s1) := by
    unfold repoSave at h
    split at h
    · simp at h
    · exact h
  have : Steps IsLoad s1 (repoSave env opts s1).2 := by
    unfold repoSave
    split
    · exact .refl s1
    · rw [commitSave_eq, M.bind_run, C02_second_save_silent hc]
      exact Does.bind does_flush_load (fun _ => does_unDirty env) s1
  obtain ⟨t, e, q⟩ := this.trace
  refine ⟨t, e, q, ?_, ?_⟩
  · unfold asked
    rw [List.filterMap_eq_nil_iff]
    intro x hx
    have := q x hx
    cases x with
    | conv n par op st u => cases op <;> cases par <;> simp_all [IsLoad]
    | _ => rfl
  · unfold written
    rw [List.filterMap_eq_nil_iff]
    intro x hx
    have := q x hx
    cases x <;> simp_all [IsLoad]

/-- **C02** The save at the end of `Main` after a last successful `Repository.Save` or `Commit`: after `Main` returned, nothing is called but
what concerns events. -/
theorem C02_final_save_silent {main p : Prog} {keys : List Nat} {s s1 s0 : St} {k : Option Err → Prog}
    (hp : p = .save k ∧ repoSave env opts s = (.ok (), s1) ∨ p = .commit k ∧ commitSave env opts s = (.ok (), s1))
    (hv : Visits env opts main (atStart opts keys s0) p s) (hk : k none = .ret none) :
    ∃ t, (doStage env opts main (atMain opts keys s0)).2.trace = s1.trace ++ .mainRet .ok :: t ∧
      ∀ x ∈ t, x.IsEvPersist opts.dryRun ∨ x.IsSend opts.dryRun := by
  have hc : commitSave env opts s = (.ok (), s1) := by
    rcases hp with ⟨_, hx⟩ | ⟨_, hx⟩
    · unfold repoSave at hx
      split at hx
      · simp at hx
      · exact hx
    · exact hx
  have hn : Next env opts p s (k none) s1 := by
    rcases hp with ⟨rfl, hx⟩ | ⟨rfl, hx⟩
    · exact .save (by unfold M.attempt; rw [hx])
    · exact .commit (by unfold M.attempt; rw [hx])
  have hrun : runProg env opts main (atStart opts keys s0) = (.ok (), s1) := by
    rw [hv.run, hn.run, hk]; rfl
  have hcall := callMain_runProg (env := env) (opts := opts) main keys s0
  rw [hrun] at hcall
  obtain ⟨h1, h2, _⟩ := saved_state hc
  have hpl := persist_log (env := env) (opts := opts) (.mainRet .ok) h1 h2
  obtain ⟨tp, ts, e, F⟩ := finishEvents_shape env opts (s1.log (.mainRet .ok))
  have hev : ∀ x ∈ tp ++ ts, x.IsEvPersist opts.dryRun ∨ x.IsSend opts.dryRun := by
    intro x hx
    rcases List.mem_append.1 hx with hx | hx
    · exact .inl (F.isPers x hx)
    · rcases F.send with ⟨h0, _⟩ | ⟨st, b, _, h0, _⟩
      · rw [h0] at hx; simp at hx
      · exact .inr (h0.isSend x hx)
  unfold doStage
  rw [hcall]
  simp only [Res.stat]
  cases Err.joinAll (s1.log (Call.mainRet Stat.ok)).errs with
  | some e' => exact ⟨[], by simp [St.log], by simp⟩
  | none =>
    dsimp only
    rw [hpl]
    dsimp only
    have e' : (finishEvents env opts (s1.log (.mainRet .ok))).2.trace = s1.trace ++ .mainRet .ok :: (tp ++ ts) := by
      rw [e]; simp [St.log]
    cases hf : finishEvents env opts (s1.log (.mainRet .ok)) with
    | mk r s3 =>
      rw [hf] at e'
      cases r <;> exact ⟨tp ++ ts, e', hev⟩

/-! ## C10 -/

theorem keepsSnap_visit (v : Visit Node) : Keeps (fun a b => ∀ p sn, a.snap (some p) = some sn → b.snap (some p) = some sn) (snapshotVisit env v) := by
  intro s p sn hs
  unfold snapshotVisit convert
  split
  · exact hs
  · next hne =>
    have hv : some p ≠ v.entity := by
      intro he
      exact hne sn p (by rw [← he]; exact hs) he.symm
    dsimp only
    cases env.conv s.trace s.heap v.entity v.parent .query with
    | panic => exact hs
    | ok m => simp only [hv, if_false]; exact hs
    | err e =>
      dsimp only
      split
      · simp only [hv, if_false]; exact hs
      · exact hs

theorem keepsSnap_ord : PreOrd (fun a b : St => ∀ p sn, a.snap (some p) = some sn → b.snap (some p) = some sn) :=
  ⟨fun _ _ _ h => h, fun h1 h2 p sn h => h2 p sn (h1 p sn h)⟩

theorem keepsSnap_update : Keeps (fun a b => ∀ p sn, a.snap (some p) = some sn → b.snap (some p) = some sn) (updateSnapshot env) :=
  fun s => Keeps.forEach keepsSnap_ord keepsSnap_visit _ s

theorem keepsSnap_build (r : Ptr) : Keeps (fun a b => ∀ p sn, a.snap (some p) = some sn → b.snap (some p) = some sn) (buildEntity env r) := by
  intro s p sn hs
  unfold buildEntity
  split <;> exact hs

theorem keepsSnap_add (r : Ptr) : Keeps (fun a b => ∀ p sn, a.snap (some p) = some sn → b.snap (some p) = some sn) (containerAdd r) := by
  intro s p sn hs
  unfold containerAdd
  split <;> exact hs

theorem keepsSnap_remove (r : Ptr) : Keeps (fun a b => ∀ p sn, a.snap (some p) = some sn → b.snap (some p) = some sn) (containerRemove r) := by
  intro s p sn hs
  unfold containerRemove
  split <;> exact hs

theorem repoAdd_snap' {rs : List Ptr} {s s' : St} {r : Res Unit} (hx : repoAdd rs s = (r, s')) : s'.snap = s.snap := by
  have := (repoAdd_snap rs s).2.1; rw [hx] at this; exact this

theorem repoRemoveLoop_snap' {rs : List Ptr} {s s' : St} {r : Res Unit} (hx : repoRemoveLoop rs s = (r, s')) : s'.snap = s.snap := by
  have := (repoRemoveLoop_snap rs s).2.1; rw [hx] at this; exact this

/-- **C10** What is remembered of an entity is isolated from everything user code does until the next save: edits of the objects, loading further
roots (also ones containing the entity), adding and removing. -/
theorem C10_record_isolated {p p' : Prog} {s s' : St} (hw : Works env opts p s p' s') {q : Ptr} {sn : Snap}
    (hs : s.snap (some q) = some sn) : s'.snap (some q) = some sn := by
  induction hw with
  | here => exact hs
  | step hne hn _ ih =>
    refine ih ?_
    clear ih
    cases hn with
    | mutate => exact hs
    | look => exact hs
    | output => exact hs
    | get hx =>
      refine keep_of (R := fun a b => ∀ p sn, a.snap (some p) = some sn → b.snap (some p) = some sn) hx (Keeps.attempt ?_) q sn hs
      intro s p sn hs
      unfold repoGet
      split
      · exact hs
      · exact Keeps.bind (m := buildEntity env _) keepsSnap_ord (keepsSnap_build _) (fun _ => Keeps.bind (m := containerAdd _) keepsSnap_ord (keepsSnap_add _) fun _ =>
          keepsSnap_update) s p sn hs
    | customGet hx =>
      refine keep_of (R := fun a b => ∀ p sn, a.snap (some p) = some sn → b.snap (some p) = some sn) hx (Keeps.attempt ?_) q sn hs
      refine Keeps.bind (m := M.modify _) keepsSnap_ord (fun s p sn hs => hs) fun _ => Keeps.bind (m := M.forEach _ customAdd) keepsSnap_ord
        (Keeps.forEach keepsSnap_ord (fun r s p sn hs => ?_) _) fun _ => keepsSnap_update
      unfold customAdd
      split
      · exact hs
      · exact keepsSnap_add r s p sn hs
    | add hx => rw [repoAdd_snap' hx]; exact hs
    | remove hx =>
      unfold repoRemove at hx
      dsimp only at hx
      split at hx
      · rw [repoRemoveLoop_snap' hx]; exact hs
      · split at hx
        · simp at hx
        · next heq =>
          have h1 := repoAdd_snap' heq
          split at hx
          · simp at hx
          · next heq2 =>
            have h2 := keep_of heq2 keepsSnap_update q sn (by rw [h1]; exact hs)
            simp only [appendErr, M.modify, Prod.mk.injEq, true_and] at hx
            rw [← hx]; exact h2
          · next heq2 =>
            have h2 := keep_of heq2 keepsSnap_update q sn (by rw [h1]; exact hs)
            rw [repoRemoveLoop_snap' hx]; exact h2
    | save => exact absurd trivial hne
    | commit => exact absurd trivial hne
    | build hx => exact keep_of hx (Keeps.attempt (keepsSnap_build _)) q sn hs
    | enter => exact absurd trivial hne
    | cAdd hx => exact keep_of hx (Keeps.attempt (keepsSnap_add _)) q sn hs
    | cRemove hx => exact keep_of hx (Keeps.attempt (keepsSnap_remove _)) q sn hs

/-- **C10** A successful `Repository.Get` remembers every entity of the aggregate it did not remember before, exactly as it is then. -/
theorem C10_get_records {r : Ptr} {s s' : St} (hg : repoGet env r s = (.ok (), s')) :
    (∀ n, Reach s'.now none n → (n = none ∨ s.snap n = none) → ∃ sn, s'.snap n = some sn ∧ Faithful env s'.heap s'.now n sn) ∧
    (∀ q sn, s.snap (some q) = some sn → s'.snap (some q) = some sn) ∧ r ∈ s'.roots := by
  unfold repoGet at hg
  split at hg
  · simp at hg
  · have hg' : M.bind (buildEntity env r) (fun _ => M.bind (containerAdd r) fun _ => updateSnapshot env) s = (.ok (), s') := hg
    obtain ⟨_, s1, h1, h2⟩ := bind_ok hg'
    obtain ⟨_, s2, h3, h4⟩ := bind_ok h2
    have e1 : s1.snap = s.snap := by
      unfold buildEntity at h1
      split at h1
      · simp at h1
      · simp only [M.extH, Prod.mk.injEq] at h1; rw [← h1.2]; rfl
    have e2 : s2.snap = s1.snap ∧ r ∈ s2.roots := by
      unfold containerAdd at h3
      split at h3
      · simp at h3
      · simp only [Prod.mk.injEq, true_and] at h3; rw [← h3]; simp
    obtain ⟨u1, u2, u3, u4⟩ := updateSnapshot_ok h4
    have hk : s'.now = s2.graph.kids := by rw [u1]; rfl
    have hh : s'.heap = s2.heap := by rw [u1]
    have hr : s'.roots = s2.roots := by rw [u1]
    refine ⟨?_, ?_, hr ▸ e2.2⟩
    · intro n hn ho
      rw [hk] at hn ⊢
      rw [hh]
      exact u2 n hn (by rw [e2.1, e1]; exact ho)
    · intro q sn hq
      exact u4 (some q) sn (by simp) (by rw [e2.1, e1]; exact hq)

/-- **C10** A save compares with what was loaded: if `q` was first loaded by this `Get`, then whatever user code did since (without saving), the children
the save compares with (`kidPool`, see `C01_changes_exact`) are those at load time, and the remembered model is that of load time. -/
theorem C10_save_compares_with_load {r q : Ptr} {p p' : Prog} {s s1 s2 : St} (hg : repoGet env r s = (.ok (), s1)) (hnew : s.snap (some q) = none)
    (hq : Reach s1.now none (some q)) (hw : Works env opts p s1 p' s2) :
    s2.kidPool (some q) = some (s1.now (some q)) ∧
    ∃ sn, s2.snap (some q) = some sn ∧ Faithful env s1.heap s1.now (some q) sn := by
  obtain ⟨sn, h1, h2⟩ := (C10_get_records hg).1 (some q) hq (.inr hnew)
  have h3 := C10_record_isolated hw h1
  exact ⟨by unfold St.kidPool; rw [h3, ← h2.1]; rfl, sn, h3, h2⟩

/-- **C10** A save compares with what was saved last: after a successful save everything in the aggregate is remembered as it was saved, and nothing
else; and this stays so until the next save. -/
theorem C10_save_compares_with_save {p p' : Prog} {s s1 s2 : St} {q : Ptr} (hs : commitSave env opts s = (.ok (), s1))
    (hq : Reach s1.now none (some q)) (hw : Works env opts p s1 p' s2) :
    s2.kidPool (some q) = some (s1.now (some q)) ∧
    ∃ (h0 : Heap) (sn : Snap), h0.kids = s1.heap.kids ∧ (∀ p, { h0.attr p with dirty := false } = { s1.heap.attr p with dirty := false }) ∧
      s2.snap (some q) = some sn ∧ Faithful env h0 s1.now (some q) sn := by
  obtain ⟨_, _, ⟨h0, e1, e2, e3⟩, _⟩ := saved_state hs
  obtain ⟨sn, h1, h2⟩ := e3 (some q) hq
  have h3 := C10_record_isolated hw h1
  exact ⟨by unfold St.kidPool; rw [h3]; exact congrArg some h2.1, h0, sn, e1, e2, h3, h2⟩

/-! ## C11 -/

theorem Traced.ext {α : Type} {ans : St → Res α} {mk : Stat → Call} (h : Panics (mk .panic)) : Traced (M.ext ans mk) := by
  intro s
  refine ⟨[mk (ans s).stat], rfl, fun hp => ⟨_, List.mem_singleton.2 rfl, ?_⟩⟩
  have hp : (ans s).stat = .panic := hp
  rw [hp]; exact h

theorem traced_eventModels (es : List Event) : Traced (eventModels env es) := by
  induction es with
  | nil => exact Traced.pure _
  | cons e es ih => exact Traced.bind (Traced.ext (by simp [Panics])) fun _ => Traced.bind ih fun _ => Traced.pure _

theorem traced_exec (as : List Action) : Traced (exec env opts as) := by
  intro s
  obtain ⟨⟨t, e, b⟩, _⟩ := pcause_exec (X := fun _ => False) (env := env) (opts := opts) as s
  exact ⟨t, e, fun hp => (b hp).resolve_right id⟩

theorem traced_persistEvents (es : List Event) : Traced (persistEvents env opts es) := by
  intro s
  obtain ⟨t, e, b⟩ := traced_eventModels (env := env) es s
  unfold persistEvents
  cases hr : eventModels env es s with
  | mk r s1 =>
    rw [hr] at e b
    cases r with
    | panic => exact ⟨t, e, fun _ => b rfl⟩
    | err er => exact ⟨t, e, by simp [Res.stat]⟩
    | ok ms =>
      dsimp only
      obtain ⟨t2, e2, b2⟩ := traced_exec (env := env) (opts := opts) [{ op := .insert, models := ms, prev := [] }] s1
      refine ⟨t ++ t2, by simp only at e; rw [e2, e, List.append_assoc], fun hp => ?_⟩
      obtain ⟨x, hx, hb⟩ := b2 hp
      exact ⟨x, by simp [hx], hb⟩

theorem traced_dispatchEvents (es : List Event) : Traced (dispatchEvents env opts es) := by
  have hd : ∀ l, Traced (busDispatch env l) := fun l => Traced.ext (by simp [Panics])
  have hb : ∀ l, Traced (busBegin env l) := by
    intro l s
    unfold busBegin
    cases hc : (env.dispatchBegin s.trace l).2 with
    | panic => exact ⟨_, rfl, fun _ => ⟨_, List.mem_singleton.2 rfl, rfl⟩⟩
    | err e => exact ⟨_, rfl, by simp [Res.stat]⟩
    | ok u => exact ⟨_, rfl, by simp [Res.stat]⟩
  unfold dispatchEvents
  split
  · exact Traced.pure ()
  · split
    · exact hd es
    · refine Traced.bind ?_ fun _ => ?_
      · split
        · exact hb _
        · exact Traced.pure ()
      · split
        · exact hd _
        · exact Traced.pure ()

theorem traced_finishEvents : Traced (finishEvents env opts) := by
  intro s
  unfold finishEvents
  dsimp only
  split
  · exact ⟨[], by simp [Res.stat]⟩
  · refine Traced.bind ?_ (fun _ s => ?_) s
    · split
      · exact traced_persistEvents _
      · exact Traced.pure ()
    · unfold sendEvents
      split
      · exact ⟨[], by simp [Res.stat]⟩
      · rw [inErrList_fst, inErrList_snd]
        exact traced_dispatchEvents _ s

/-- **C11** At every point user code comes to, whatever it did before: if a save finds an update to do, the entity is remembered. -/
theorem C11_update_has_record (hl : LoadsModels env) {main p : Prog} {keys : List Nat} {s : St}
    (hv : Visits env opts main (atStart opts keys (.fresh h)) p s) {cs : List (Change Node)} (hc : entityChanges env opts s = some cs)
    {n par : Node} (hj : (⟨n, par, .update⟩ : Job) ∈ jobs cs) : (s.snap n).isSome = true :=
  tracked_of_closed hc (closed_visits hl hv closed_empty) hj

/-- **C11** A save at any point never crashes by itself: if it panics, one of its calls did. -/
theorem C11_save_panics_only_in_calls (hl : LoadsModels env) {main p : Prog} {keys : List Nat} {s : St}
    (hv : Visits env opts main (atStart opts keys (.fresh h)) p s) (hp : (persist env opts s).1 = .panic) :
    ∃ t, (persist env opts s).2.trace = s.trace ++ t ∧ ∃ x ∈ t, Panics x := by
  obtain ⟨⟨t, e, b⟩, _⟩ := safe_persist (env := env) (opts := opts) s (closed_visits hl hv closed_empty)
  exact ⟨t, e, b (by rw [hp]; rfl)⟩

/-- **C11** The same for `Main` and the final save together. -/
theorem C11_main_panics_only_in_calls (hl : LoadsModels env) (main : Prog) (keys : List Nat)
    (hp : (doStage env opts main (atMain opts keys (.fresh h))).1 = none) :
    (∃ x ∈ (doStage env opts main (atMain opts keys (.fresh h))).2.trace, Panics x) ∨
    ∃ s', Visits env opts main (atStart opts keys (.fresh h)) .panic s' := by
  have hcall := callMain_runProg (env := env) (opts := opts) main keys (.fresh h)
  obtain ⟨⟨t, e, b⟩, k⟩ := safe_runProg (opts := opts) hl main (atStart opts keys (.fresh h)) closed_empty
  generalize hr : runProg env opts main (atStart opts keys (.fresh h)) = x at *
  obtain ⟨r, s1⟩ := x
  unfold doStage at hp ⊢
  rw [hcall] at hp ⊢
  simp only at hp e b k ⊢
  cases r with
  | panic =>
    rcases b rfl with ⟨x, hx, hb⟩ | hv
    · left
      refine ⟨x, ?_, hb⟩
      simp only [St.log, e]
      simp [hx]
    · exact .inr hv
  | err e' => simp at hp
  | ok u =>
    left
    have hcl := k (by simp [Res.stat])
    dsimp only at hp ⊢
    cases hj : Err.joinAll (s1.log (.mainRet (Res.ok u).stat)).errs with
    | some e' => rw [hj] at hp; simp at hp
    | none =>
      rw [hj] at hp
      dsimp only at hp ⊢
      obtain ⟨⟨t2, e2, b2⟩, _⟩ := safe_persist (env := env) (opts := opts) (s1.log (.mainRet (Res.ok u).stat)) hcl
      cases hpr : persist env opts (s1.log (.mainRet (Res.ok u).stat)) with
      | mk r2 s2 =>
        rw [hpr] at hp e2 b2
        cases r2 with
        | panic =>
          obtain ⟨x, hx, hb⟩ := b2 rfl
          refine ⟨x, ?_, hb⟩
          simp only at e2 ⊢
          rw [e2]; simp [hx]
        | err e' => simp at hp
        | ok u2 =>
          dsimp only at hp ⊢
          have hf := traced_finishEvents (env := env) (opts := opts)
          obtain ⟨t3, e3, b3⟩ := hf s2
          cases hfe : finishEvents env opts s2 with
          | mk r3 s3 =>
            rw [hfe] at hp e3 b3
            cases r3 with
            | panic =>
              obtain ⟨x, hx, hb⟩ := b3 rfl
              refine ⟨x, ?_, hb⟩
              simp only at e3 ⊢
              rw [e3]; simp [hx]
            | err e' => simp at hp
            | ok u3 => simp at hp

/-- a panicking outcome is one of a call, or of the part `q`. -/
def Blame (q o : Outcome) : Prop := o.1 = none → (∃ x ∈ o.2.trace, Panics x) ∨ (q.1 = none ∧ q.2.trace <+: o.2.trace)

theorem tx_blame (f : St → Outcome) (s : St) : Blame (f (s.log (.begin .ok))) (runWithTransaction env opts f s) := by
  intro hn
  unfold runWithTransaction callOut at hn ⊢
  try dsimp only at hn ⊢
  cases hb : env.begin_ s.trace with
  | panic => exact .inl ⟨.begin .panic, by simp [St.log, Res.stat], rfl⟩
  | err e => rw [hb] at hn; simp at hn
  | ok u =>
    rw [hb] at hn
    simp only [Res.stat] at hn ⊢
    cases hf : f (s.log (.begin .ok)) with
    | mk r s2 =>
      rw [hf] at hn
      cases r with
      | none => exact .inr ⟨rfl, by simp [recoverRollback, callOut, St.log]⟩
      | some r =>
        dsimp only at hn ⊢
        split at hn
        · next hc =>
          rw [if_pos hc]
          cases hr : env.rollback s2.trace with
          | panic => exact .inl ⟨.rollback .panic, by simp [recoverRollback, callOut, St.log, Res.stat], rfl⟩
          | ok u =>
            rw [hr] at hn
            simp only at hn ⊢
            split at hn
            · next hc2 =>
              rw [if_pos hc2]
              cases hx : env.busRollback (s2.log (.rollback .ok)).trace with
              | panic => simp only [Res.stat, hx]; exact .inl ⟨.busRollback .panic, by simp [recoverRollback, callOut, St.log], rfl⟩
              | ok u => simp only [Res.stat, hx] at hn; simp at hn
              | err u => simp only [Res.stat, hx] at hn; simp at hn
            · simp at hn
          | err e =>
            rw [hr] at hn
            simp only at hn ⊢
            split at hn
            · next hc2 =>
              rw [if_pos hc2]
              cases hx : env.busRollback (s2.log (.rollback .err)).trace with
              | panic => simp only [Res.stat, hx]; exact .inl ⟨.busRollback .panic, by simp [recoverRollback, callOut, St.log], rfl⟩
              | ok u => simp only [Res.stat, hx] at hn; simp at hn
              | err u => simp only [Res.stat, hx] at hn; simp at hn
            · simp at hn
        · next hc =>
          rw [if_neg hc]
          cases hr : env.commit s2.trace with
          | panic => exact .inl ⟨.commit .panic, by simp [recoverRollback, callOut, St.log, Res.stat], rfl⟩
          | err e => rw [hr] at hn; simp at hn
          | ok u =>
            rw [hr] at hn
            simp only at hn ⊢
            split at hn
            · next hc2 =>
              rw [if_pos hc2]
              cases hx : env.busCommit (s2.log (.commit .ok)).trace with
              | panic => simp only [Res.stat, hx]; exact .inl ⟨.busCommit .panic, by simp [recoverRollback, callOut, St.log], rfl⟩
              | ok u => simp only [Res.stat, hx] at hn; simp at hn
              | err u => simp only [Res.stat, hx] at hn; simp at hn
            · simp at hn

theorem Released.panic_mem {ks b t} (h : Released ks b t) (hb : b = false) : ∃ x ∈ t, Panics x := by
  induction h with
  | nil => simp at hb
  | cons k ks st b t hst _ ih => obtain ⟨x, hx, hp⟩ := ih hb; exact ⟨x, by simp [hx], hp⟩
  | panic k ks => exact ⟨_, List.mem_singleton.2 rfl, rfl⟩

theorem Posted.panic_mem {ks b t} (h : Posted ks b t) (hb : b = false) : ∃ x ∈ t, Panics x := by
  induction h with
  | nil => simp at hb
  | cons k ks st b t hst _ ih => obtain ⟨x, hx, hp⟩ := ih hb; exact ⟨x, by simp [hx], hp⟩
  | panic k ks => exact ⟨_, List.mem_singleton.2 rfl, rfl⟩

theorem body_blame (main : Prog) (s : St) (keys : List Nat) (hs : s.trace = []) :
    Blame (doStage env opts main (atMain opts keys s))
      ((if opts.withTransaction then runWithTransaction env opts (doStage env opts main) else doStage env opts main)
        { s with trace := (keys.insertionSort (· ≤ ·)).map fun k => .lock k .ok }) := by
  cases hw : opts.withTransaction with
  | false =>
    have e : ({ s with trace := (keys.insertionSort (· ≤ ·)).map fun k => Call.lock k .ok } : St) = atMain opts keys s := by
      simp [atMain, hs, hw]
    rw [e]
    intro hn
    exact .inr ⟨hn, List.prefix_refl _⟩
  | true =>
    have e : ({ s with trace := (keys.insertionSort (· ≤ ·)).map fun k => Call.lock k .ok } : St).log (.begin .ok) = atMain opts keys s := by
      simp [atMain, hs, hw, St.log]
    have := tx_blame (env := env) (opts := opts) (doStage env opts main) { s with trace := (keys.insertionSort (· ≤ ·)).map fun k => Call.lock k .ok }
    rw [e] at this
    exact this

theorem core_blame (keys : List Nat) (main : Prog) (s : St) (hs : s.trace = []) :
    Blame (doStage env opts main (atMain opts keys s)) (saveCore env opts keys main s) := by
  have hb := body_blame (env := env) (opts := opts) main s keys hs
  intro hn
  unfold saveCore at hn ⊢
  try dsimp only at hn ⊢
  split at hn
  · next hk =>
    rw [if_pos hk]
    have hk : keys = [] := by simpa using hk
    subst hk
    have e : ({ s with trace := (([] : List Nat).insertionSort (· ≤ ·)).map fun k => Call.lock k .ok } : St) = s := by simp [← hs]
    rw [e] at hb
    exact hb hn
  · next hk =>
    rw [if_neg hk]
    unfold runOnLock at hn ⊢
    dsimp only at hn ⊢
    split at hn
    · simp at hn
    · next hd =>
      rw [if_neg hd]
      obtain ⟨got, t, e, r⟩ := acquire_run env (keys.insertionSort (· ≤ ·)) [] s
      rw [e] at hn ⊢
      generalize (acquire env (keys.insertionSort (· ≤ ·)) [] s).1 = x at *
      cases r with
      | all =>
        simp only [hs, List.nil_append] at hn ⊢
        generalize (if opts.withTransaction then runWithTransaction env opts (doStage env opts main) else doStage env opts main)
          { s with trace := (keys.insertionSort (· ≤ ·)).map fun k => Call.lock k .ok } = o' at *
        obtain ⟨t', e', r'⟩ := releaseAll_run env (keys.insertionSort (· ≤ ·)) o'.2
        cases hq : releaseAll env (keys.insertionSort (· ≤ ·)) o'.2 with
        | mk b s' =>
          rw [hq] at hn e' r'
          simp only at e' r'
          cases b with
          | false =>
            obtain ⟨x, hx, hp⟩ := r'.panic_mem rfl
            exact .inl ⟨x, by simp only; rw [e']; simp [hx], hp⟩
          | true =>
            simp only at hn ⊢
            rcases hb hn with ⟨x, hx, hp⟩ | ⟨h1, h2⟩
            · exact .inl ⟨x, by rw [e']; simp [hx], hp⟩
            · exact .inr ⟨h1, h2.trans (by rw [e']; simp)⟩
      | failed pre post k e0 h hk he =>
        simp only [List.nil_append] at hn ⊢
        obtain ⟨t', e', r'⟩ := releaseAll_run env got { s with trace := s.trace ++ ((got.map fun k => .lock k .ok) ++ [.lock k .err]) }
        cases hq : releaseAll env got { s with trace := s.trace ++ ((got.map fun k => .lock k .ok) ++ [.lock k .err]) } with
        | mk b s' =>
          rw [hq] at hn e' r'
          simp only at e' r'
          cases b with
          | false =>
            obtain ⟨x, hx, hp⟩ := r'.panic_mem rfl
            exact .inl ⟨x, by simp only; rw [e']; simp [hx], hp⟩
          | true => simp at hn
      | panic pre post k hk => exact .inl ⟨.lock k .panic, by simp, rfl⟩

/-- **C11** Whole commands: a command panics only if `Init` panicked, an external call panicked, or user code itself came to a panic. In particular looking up a previous model never
crashes a command. -/
theorem C11_command_panics_only_outside (hl : LoadsModels env) (hp : (run env opts c h).1 = none) :
    c.init = some .panic ∨ (∃ x ∈ (run env opts c h).2.trace, Panics x) ∨
    ∃ keys s', c.Keys keys ∧ Visits env (c.opts opts) c.main (atStart (c.opts opts) keys (.fresh h)) .panic s' := by
  have key : ∀ keys, c.Keys keys → (save env (c.opts opts) keys c.main (.fresh h)).1 = none →
      (∃ x ∈ (save env (c.opts opts) keys c.main (.fresh h)).2.trace, Panics x) ∨
      ∃ keys s', c.Keys keys ∧ Visits env (c.opts opts) c.main (atStart (c.opts opts) keys (.fresh h)) .panic s' := by
    intro keys hk hn
    have hb := core_blame (env := env) (opts := c.opts opts) keys c.main (.fresh h) rfl
    have fin : ∀ o : Outcome, Blame (doStage env (c.opts opts) c.main (atMain (c.opts opts) keys (.fresh h))) o → o.1 = none →
        (∃ x ∈ o.2.trace, Panics x) ∨
        ∃ keys s', c.Keys keys ∧ Visits env (c.opts opts) c.main (atStart (c.opts opts) keys (.fresh h)) .panic s' := by
      intro o ho hn
      rcases ho hn with h1 | ⟨h1, h2⟩
      · exact .inl h1
      · rcases C11_main_panics_only_in_calls (opts := c.opts opts) hl c.main keys h1 with ⟨x, hx, hp⟩ | ⟨s', hv⟩
        · exact .inl ⟨x, h2.subset hx, hp⟩
        · exact .inr ⟨keys, s', hk, hv⟩
    unfold save at hn ⊢
    cases hc : saveCore env (c.opts opts) keys c.main (.fresh h) with
    | mk r s1 =>
      rw [hc] at hn hb
      cases r with
      | none => exact fin _ hb rfl
      | some r =>
        simp only at hn ⊢
        split at hn
        · next he =>
          rw [if_pos he]
          obtain ⟨t, e, q⟩ := postSaves_run env (c.opts opts).hooks s1
          cases hq : postSaves env (c.opts opts).hooks s1 with
          | mk b s' =>
            rw [hq] at hn e q
            simp only at e q
            cases b with
            | true => simp at hn
            | false =>
              obtain ⟨x, hx, hpx⟩ := q.panic_mem rfl
              exact .inl ⟨x, by simp only; rw [e]; simp [hx], hpx⟩
        · simp at hn
  unfold run at hp ⊢
  cases hi : c.init with
  | none => rw [hi] at hp; exact .inr (key [] (.inl ⟨hi, rfl⟩) hp)
  | some r =>
    rw [hi] at hp
    cases r with
    | ok keys => exact .inr (key keys (.inr hi) hp)
    | err e => simp at hp
    | panic => exact .inl rfl

end Ddd
