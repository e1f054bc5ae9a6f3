import Verif.Spec.Trace
/-! Reasoning about the calls a piece of Go code makes. -/
set_option linter.unusedVariables false
namespace Ddd

/-- relation between the state before and after a piece of code: the trace is extended by calls satisfying `p`, the pending
bus transaction is unchanged, recorded repository errors are kept, executed actions are kept. -/
structure Steps (p : Call → Prop) (s s' : St) : Prop where
  trace : ∃ t, s'.trace = s.trace ++ t ∧ ∀ c ∈ t, p c
  ctx : s'.eventCtx = s.eventCtx
  errs : s.errs <+: s'.errs

theorem Steps.refl {p : Call → Prop} (s : St) : Steps p s s := ⟨⟨[], by simp⟩, rfl, List.prefix_refl _⟩

theorem Steps.trans {p : Call → Prop} {a b c : St} (h1 : Steps p a b) (h2 : Steps p b c) : Steps p a c := by
  obtain ⟨t1, e1, q1⟩ := h1.trace
  obtain ⟨t2, e2, q2⟩ := h2.trace
  refine ⟨⟨t1 ++ t2, by rw [e2, e1, List.append_assoc], ?_⟩, h2.ctx.trans h1.ctx, h1.errs.trans h2.errs⟩
  intro x hx
  rcases List.mem_append.1 hx with hx | hx
  · exact q1 x hx
  · exact q2 x hx

theorem Steps.mono {p q : Call → Prop} (h : ∀ c, p c → q c) {s s' : St} (hs : Steps p s s') : Steps q s s' :=
  ⟨let ⟨t, e, k⟩ := hs.trace; ⟨t, e, fun c hc => h c (k c hc)⟩, hs.ctx, hs.errs⟩

/-- code making only calls satisfying `p`. -/
def Does (p : Call → Prop) {α : Type} (m : M α) : Prop := ∀ s, Steps p s (m s).2

namespace Does
variable {p : Call → Prop} {α β : Type}

theorem pure (a : α) : Does p (M.pure a) := fun s => .refl s
theorem pure' (a : α) : Does p (Pure.pure a : M α) := fun s => .refl s
theorem fail (e : Err) : Does p (M.fail e : M α) := fun s => .refl s
theorem crash : Does p (M.crash : M α) := fun s => .refl s

theorem bind {m : M α} {f : α → M β} (hm : Does p m) (hf : ∀ a, Does p (f a)) : Does p (M.bind m f) := by
  intro s
  have h1 := hm s
  unfold M.bind
  cases h : m s with
  | mk r s' =>
    rw [h] at h1
    cases r with
    | ok a => exact h1.trans (hf a s')
    | err e => exact h1
    | panic => exact h1

theorem bind' {m : M α} {f : α → M β} (hm : Does p m) (hf : ∀ a, Does p (f a)) : Does p (m >>= f) := bind hm hf

theorem attempt {m : M Unit} (hm : Does p m) : Does p (M.attempt m) := by
  intro s
  have h1 := hm s
  unfold M.attempt
  cases h : m s with
  | mk r s' => rw [h] at h1; cases r <;> exact h1

theorem forEach {f : α → M Unit} (hf : ∀ a, Does p (f a)) (l : List α) : Does p (M.forEach l f) := by
  induction l with
  | nil => exact pure ()
  | cons a l ih => exact bind (hf a) fun _ => ih

theorem ext {ans : St → Res α} {mk : Stat → Call} (h : ∀ st, p (mk st)) : Does p (M.ext ans mk) := by
  intro s
  exact ⟨⟨[mk (ans s).stat], rfl, by simpa using h _⟩, rfl, List.prefix_refl _⟩

theorem extH {ans : St → Heap × Res Unit} {mk : Stat → Call} (h : ∀ st, p (mk st)) : Does p (M.extH ans mk) := by
  intro s
  exact ⟨⟨[mk (ans s).2.stat], rfl, by simpa using h _⟩, rfl, List.prefix_refl _⟩

theorem modify {f : St → St} (h : ∀ s, (f s).trace = s.trace ∧ (f s).eventCtx = s.eventCtx ∧ (f s).errs = s.errs) :
    Does p (M.modify f) := by
  intro s
  refine ⟨⟨[], ?_⟩, (h s).2.1, ?_⟩
  · simp [M.modify, (h s).1]
  · simp [M.modify, (h s).2.2]

theorem mono {q : Call → Prop} (h : ∀ c, p c → q c) {m : M α} (hm : Does p m) : Does q m :=
  fun s => (hm s).mono h

end Does

variable (env : Env) (opts : Opts)

/-- conversion calls. -/
def Call.IsConv : Call → Prop | .conv .. => True | _ => False
theorem does_convert (n par op) : Does Call.IsConv (convert env n par op) := by
  intro s
  exact ⟨⟨_, rfl, by simp [Call.IsConv]⟩, rfl, List.prefix_refl _⟩

theorem does_snapshotVisit (v : Visit Node) : Does Call.IsConv (snapshotVisit env v) := by
  intro s
  unfold snapshotVisit
  split
  · exact .refl s
  · have h := does_convert env v.entity v.parent .query s
    split
    · next h' => rw [h'] at h; exact h
    · next h' =>
      rw [h'] at h
      split
      · exact h.trans ⟨⟨[], by simp⟩, rfl, List.prefix_refl _⟩
      · exact h
    · next h' => rw [h'] at h; exact h.trans ⟨⟨[], by simp⟩, rfl, List.prefix_refl _⟩

theorem does_updateSnapshot : Does Call.IsConv (updateSnapshot env) := fun s =>
  Does.forEach (does_snapshotVisit env) _ s

theorem does_flush : Does Call.IsConv (flush env) := fun s =>
  (⟨⟨[], by simp⟩, rfl, List.prefix_refl _⟩ : Steps _ s { s with snap := fun _ => none }).trans
    (does_updateSnapshot env _)

theorem does_unDirty {p : Call → Prop} : Does p (unDirty env) := fun s =>
  Does.forEach (fun v => Does.modify (by intro s; split <;> simp)) _ s

theorem does_getEntityChanged {p : Call → Prop} : Does p (getEntityChanged env opts) := by
  intro s; unfold getEntityChanged; split <;> exact .refl s

/-- calls of entity hooks. -/
def Call.IsHook (before : Bool) : Call → Prop | .hook _ k _ => k.before = before | _ => False

theorem does_execHook (ct b n) : Does (Call.IsHook b) (execHook env ct b n) := by
  intro s
  unfold execHook
  split
  · exact .refl s
  · split
    · refine Does.extH (p := Call.IsHook b) (fun st => ?_) s; rfl
    · exact .refl s

theorem does_runHooks (b cs) : Does (Call.IsHook b) (runHooks env b cs) :=
  Does.forEach (fun c => Does.forEach (fun n => does_execHook env _ _ n) _) _

def Call.IsNewID : Call → Prop | .newID _ => True | _ => False

theorem does_putID (n) : Does Call.IsNewID (putID env n) := by
  intro s
  unfold putID
  split
  · exact .refl s
  · split
    · refine Does.bind (p := Call.IsNewID) (Does.ext ?_) (fun _ => Does.modify ?_) s
      · intro _; trivial
      · intro _; exact ⟨rfl, rfl, rfl⟩
    · exact .refl s

theorem does_putNewID (cs) : Does Call.IsNewID (putNewID env cs) := by
  refine Does.forEach (fun c => ?_) _
  split
  · exact Does.forEach (does_putID env) _
  · exact Does.pure ()

theorem does_actStep (c n acc) : Does Call.IsConv (actStep env c n acc) := by
  intro s
  unfold actStep
  have h := does_convert env n (some c.parent) c.ctype.op s
  split
  · next h' => rw [h'] at h; exact h
  · next h' => rw [h'] at h; split <;> exact h
  · next h' =>
    rw [h'] at h
    split
    · split <;> exact h
    · exact h

theorem does_actLoop (c ns acc) : Does Call.IsConv (actLoop env c ns acc) := by
  induction ns generalizing acc with
  | nil => exact Does.pure _
  | cons n ns ih => exact Does.bind (does_actStep env c n acc) fun acc => ih acc

theorem does_actLoops (cs acc) : Does Call.IsConv (actLoops env cs acc) := by
  induction cs generalizing acc with
  | nil => exact Does.pure _
  | cons c cs ih => exact Does.bind (does_actLoop env c _ acc) fun acc => ih acc

theorem does_makeActions (cs) : Does Call.IsConv (makeActions env cs) :=
  Does.bind (does_actLoops env _ _) fun _ => Does.pure _

def Call.IsExec (dry : Bool) : Call → Prop | .exec .. => dry = false | _ => False

theorem does_exec (as) : Does (Call.IsExec opts.dryRun) (exec env opts as) := by
  unfold exec
  split
  · exact Does.pure ()
  · next h =>
    refine Does.bind (Does.forEach (fun a => Does.ext fun _ => ?_) _) fun _ => Does.modify fun _ => ⟨rfl, rfl, rfl⟩
    simpa [Call.IsExec] using h

theorem does_recycle {p : Call → Prop} (cs) : Does p (recycle cs) := Does.modify fun _ => ⟨rfl, rfl, rfl⟩

theorem does_persist : Does (Call.IsSave opts.dryRun) (persist env opts) := by
  unfold persist
  refine Does.bind (does_getEntityChanged env opts) fun cs => ?_
  refine Does.bind ((does_runHooks env _ _).mono ?_) fun _ => ?_
  · intro c h; cases c <;> simp_all [Call.IsHook, Call.IsSave]
  refine Does.bind ((does_putNewID env _).mono ?_) fun _ => ?_
  · intro c h; cases c <;> simp_all [Call.IsNewID, Call.IsSave]
  refine Does.bind ((does_makeActions env _).mono ?_) fun as => ?_
  · intro c h; cases c <;> simp_all [Call.IsConv, Call.IsSave]
  refine Does.bind ((does_exec env opts _).mono ?_) fun _ => ?_
  · intro c h; cases c <;> simp_all [Call.IsExec, Call.IsSave]
  refine Does.bind ((does_runHooks env _ _).mono ?_) fun _ => does_recycle cs
  · intro c h; cases c <;> simp_all [Call.IsHook, Call.IsSave]

theorem conv_save {dry : Bool} (c : Call) (h : c.IsConv) : c.IsSave dry := by
  cases c <;> simp_all [Call.IsConv, Call.IsSave]

theorem does_commitSave : Does (Call.IsSave opts.dryRun) (commitSave env opts) := by
  unfold commitSave
  refine Does.bind (does_persist env opts) fun _ => ?_
  refine Does.bind ((does_flush env).mono conv_save) fun _ => does_unDirty env

theorem save_main {dry : Bool} (c : Call) (h : c.IsSave dry) : c.IsMain dry := by
  cases c <;> simp_all [Call.IsMain, Call.IsSave]

theorem conv_main {dry : Bool} (c : Call) (h : c.IsConv) : c.IsMain dry := save_main c (conv_save c h)

theorem does_containerAdd {p : Call → Prop} (r) : Does p (containerAdd r) := by
  intro s; unfold containerAdd; split
  · exact .refl s
  · exact ⟨⟨[], by simp⟩, rfl, List.prefix_refl _⟩

theorem does_containerRemove {p : Call → Prop} (r) : Does p (containerRemove r) := by
  intro s; unfold containerRemove; split
  · exact ⟨⟨[], by simp⟩, rfl, List.prefix_refl _⟩
  · exact .refl s

theorem does_buildEntity {dry : Bool} (r) : Does (Call.IsMain dry) (buildEntity env r) := by
  intro s; unfold buildEntity; split
  · exact .refl s
  · exact Does.extH (fun _ => trivial) s

theorem does_repoGet {dry : Bool} (r) : Does (Call.IsMain dry) (repoGet env r) := by
  intro s; unfold repoGet; split
  · exact .refl s
  · exact Does.bind' (does_buildEntity env r) (fun _ => Does.bind' (does_containerAdd r)
      (fun _ => (does_updateSnapshot env).mono conv_main)) s

theorem does_repoCustomGet {dry : Bool} (g rs) : Does (Call.IsMain dry) (repoCustomGet env g rs) := by
  refine Does.bind' (Does.modify fun _ => ⟨rfl, rfl, rfl⟩) fun _ => Does.bind' (Does.forEach (fun r => ?_) _)
    (fun _ => (does_updateSnapshot env).mono conv_main)
  intro s; unfold customAdd; split
  · exact .refl s
  · exact does_containerAdd r s

theorem does_appendErr {p : Call → Prop} (e) : Does p (appendErr e) := by
  intro s
  exact ⟨⟨[], by simp [appendErr, M.modify]⟩, rfl, List.prefix_append _ _⟩

theorem does_repoAdd {p : Call → Prop} (rs) : Does p (repoAdd rs) := by
  induction rs with
  | nil => exact Does.pure ()
  | cons r rs ih =>
    intro s
    unfold repoAdd
    split
    · exact does_appendErr _ s
    · have h := does_containerAdd (p := p) r s
      split
      · next h' => rw [h'] at h; exact h.trans (does_appendErr _ _)
      · next h' => rw [h'] at h; exact h.trans (ih _)

theorem does_repoRemoveLoop {p : Call → Prop} (rs) : Does p (repoRemoveLoop rs) := by
  induction rs with
  | nil => exact Does.pure ()
  | cons r rs ih =>
    intro s
    unfold repoRemoveLoop
    have h := does_containerRemove (p := p) r s
    split
    · next h' => rw [h'] at h; exact h.trans (does_appendErr _ _)
    · next h' => rw [h'] at h; exact h.trans (ih _)

theorem does_repoRemove {dry : Bool} (rs) : Does (Call.IsMain dry) (repoRemove env rs) := by
  intro s
  unfold repoRemove
  dsimp only
  split
  · exact does_repoRemoveLoop rs s
  · have h := does_repoAdd (p := Call.IsMain dry) (rs.filter fun r => decide (r ∉ s.roots)) s
    split
    · next h' => rw [h'] at h; exact h
    · next h' =>
      rw [h'] at h
      have h2 := ((does_updateSnapshot env).mono (conv_main (dry := dry))) (by assumption : St)
      split
      · next h'' => rw [h''] at h2; exact h.trans h2
      · next h'' => rw [h''] at h2; exact (h.trans h2).trans (does_appendErr _ _)
      · next h'' => rw [h''] at h2; exact (h.trans h2).trans (does_repoRemoveLoop _ _)

theorem does_repoSave : Does (Call.IsSave opts.dryRun) (repoSave env opts) := by
  intro s
  unfold repoSave
  split
  · exact .refl s
  · exact does_commitSave env opts s

theorem does_enterRoots {dry : Bool} (rs) : Does (Call.IsMain dry) (enterRoots env rs) := by
  intro s
  unfold enterRoots
  split
  · exact .refl s
  · exact (⟨⟨[], by simp⟩, rfl, List.prefix_refl _⟩ : Steps _ s { s with roots := rs }).trans
      ((does_flush env).mono conv_main _)

theorem does_runProg (main : Prog) : Does (Call.IsMain opts.dryRun) (runProg env opts main) := by
  induction main with
  | ret r => cases r <;> exact fun s => .refl s
  | panic => exact fun s => .refl s
  | mutate f k ih =>
    exact fun s => (⟨⟨[], by simp⟩, rfl, List.prefix_refl _⟩ : Steps _ s { s with heap := f s.heap }).trans (ih _)
  | look k ih => exact fun s => ih s.heap s
  | get r k ih => exact Does.bind (Does.attempt (does_repoGet env r)) fun e => ih e
  | customGet g rs k ih => exact Does.bind (Does.attempt (does_repoCustomGet env g rs)) fun e => ih e
  | add rs k ih => exact Does.bind (does_repoAdd rs) fun _ => ih
  | remove rs k ih => exact Does.bind (does_repoRemove env rs) fun _ => ih
  | save k ih => exact Does.bind (Does.attempt ((does_repoSave env opts).mono save_main)) fun e => ih e
  | commit k ih => exact Does.bind (Does.attempt ((does_commitSave env opts).mono save_main)) fun e => ih e
  | output v k ih =>
    exact fun s => (⟨⟨[], by simp⟩, rfl, List.prefix_refl _⟩ : Steps _ s { s with output := v }).trans (ih _)
  | build r k ih => exact Does.bind (Does.attempt (does_buildEntity env r)) fun e => ih e
  | enter rs k ih => exact Does.bind (does_enterRoots env rs) fun _ => ih
  | cAdd r k ih => exact Does.bind (Does.attempt (does_containerAdd r)) fun _ => ih
  | cRemove r k ih => exact Does.bind (Does.attempt (does_containerRemove r)) fun _ => ih

end Ddd
