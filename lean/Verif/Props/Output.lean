import Verif.Spec.Output
import Verif.Props.Result
import Verif.Props.KindsDemo
/-!
# C108: Output does not end a command
-/
set_option linter.unusedVariables false
set_option linter.unusedSimpArgs false
namespace Ddd
open Spec Kinds

/-- the same but for the output -/
def Mute1 (s t : St) : Prop := ∃ v, t = { s with output := v }

/-- started in states that are the same but for the output, `m1` and `m2` give related answers and end in such states -/
def Mute {α : Type} (ρ : α → α → Prop) (m1 m2 : St → α × St) : Prop := ∀ s v, ρ (m1 s).1 (m2 { s with output := v }).1 ∧ Mute1 (m1 s).2 (m2 { s with output := v }).2

namespace Mute
variable {α β : Type} {ρ : α → α → Prop} {σ : β → β → Prop}

/-- code that does not look at the output and does not change it -/
theorem blind {m : St → α × St} (h : ∀ s v, m { s with output := v } = ((m s).1, { (m s).2 with output := v })) : Mute Eq m m := fun s v => ⟨(congrArg Prod.fst (h s v)).symm, v, congrArg Prod.snd (h s v)⟩

theorem seq {m1 m2 : St → α × St} {f1 f2 : α → St → β × St} (hm : Mute ρ m1 m2) (hf : ∀ x y, ρ x y → Mute σ (f1 x) (f2 y)) : Mute σ (fun s => f1 (m1 s).1 (m1 s).2) (fun s => f2 (m2 s).1 (m2 s).2) := by
  intro s v
  obtain ⟨h1, w, h2⟩ := hm s v
  have := hf _ _ h1 (m1 s).2 w
  simp only [h2]
  exact this

theorem congr {m1 m2 n1 n2 : St → α × St} (h : Mute ρ m1 m2) (h1 : n1 = m1) (h2 : n2 = m2) : Mute ρ n1 n2 := by subst h1 h2; exact h

theorem mono {ρ' : α → α → Prop} {m1 m2 : St → α × St} (h : Mute ρ m1 m2) (hr : ∀ x y, ρ x y → ρ' x y) : Mute ρ' m1 m2 := fun s v => ⟨hr _ _ (h s v).1, (h s v).2⟩

theorem pure (x : α) : Mute Eq (M.pure x) (M.pure x) := blind fun _ _ => rfl
theorem const (x : α) : Mute Eq (fun s => (x, s)) (fun s => (x, s)) := blind fun _ _ => rfl

theorem bind {m1 m2 : M α} {f1 f2 : α → M β} (hm : Mute Eq m1 m2) (hf : ∀ x, Mute Eq (f1 x) (f2 x)) : Mute Eq (M.bind m1 f1) (M.bind m2 f2) := by
  refine (seq hm (f1 := fun r s => match r with | .ok x => f1 x s | .err e => (.err e, s) | .panic => (.panic, s)) (f2 := fun r s => match r with | .ok x => f2 x s | .err e => (.err e, s) | .panic => (.panic, s)) ?_).congr ?_ ?_
  · rintro r _ rfl
    cases r with
    | ok x => exact hf x
    | err e => exact const _
    | panic => exact const _
  all_goals
    funext s
    unfold M.bind
    split <;> simp_all

theorem attempt {m1 m2 : M Unit} (hm : Mute Eq m1 m2) : Mute Eq (M.attempt m1) (M.attempt m2) := by
  refine (seq hm (f1 := fun r s => match r with | .ok x => (.ok none, s) | .err e => (.ok (some e), s) | .panic => (.panic, s)) (f2 := fun r s => match r with | .ok x => (.ok none, s) | .err e => (.ok (some e), s) | .panic => (.panic, s)) ?_).congr ?_ ?_
  · rintro r _ rfl; cases r <;> exact const _
  all_goals
    funext s
    unfold M.attempt
    split <;> simp_all

theorem forEach {f1 f2 : α → M Unit} (hf : ∀ x, Mute Eq (f1 x) (f2 x)) (l : List α) : Mute Eq (M.forEach l f1) (M.forEach l f2) := by
  induction l with
  | nil => exact pure ()
  | cons x l ih => exact bind (hf x) fun _ => ih

theorem modify (f : St → St) (h : ∀ s v, f { s with output := v } = { f s with output := v }) : Mute Eq (M.modify f) (M.modify f) := blind fun s v => congrArg (Prod.mk _) (h s v)

theorem before {m1 m2 : St → α × St} (f : St → St) (h : ∀ s v, f { s with output := v } = { f s with output := v }) (hm : Mute ρ m1 m2) : Mute ρ (fun s => m1 (f s)) (fun s => m2 (f s)) := by
  intro s v
  have := hm (f s) v
  rw [← h s v] at this
  exact this

end Mute
open Mute

section
variable {env : Env} {opts : Opts}

theorem mute_ext {α : Type} {f : Trace → Heap → Res α} {mk : Stat → Call} : Mute Eq (M.ext (fun s => f s.trace s.heap) mk) (M.ext (fun s => f s.trace s.heap) mk) := blind fun s v => rfl
theorem mute_extH {f : Trace → Heap → Heap × Res Unit} {mk : Stat → Call} : Mute Eq (M.extH (fun s => f s.trace s.heap) mk) (M.extH (fun s => f s.trace s.heap) mk) := blind fun s v => rfl
theorem mute_callOut {f : Trace → Res Unit} {mk : Stat → Call} : Mute Eq (callOut f mk) (callOut f mk) := blind fun s v => rfl
theorem mute_convert (n p op) : Mute Eq (convert env n p op) (convert env n p op) := blind fun s v => rfl

theorem mute_snapshotVisit (x : Visit Node) : Mute Eq (snapshotVisit env x) (snapshotVisit env x) := by
  refine blind fun s v => ?_
  unfold snapshotVisit convert
  dsimp only
  split
  · rfl
  · cases env.conv s.trace s.heap x.entity x.parent .query with
    | panic => rfl
    | err e => dsimp only; split <;> rfl
    | ok m => rfl

theorem mute_updateSnapshot : Mute Eq (updateSnapshot env) (updateSnapshot env) := by
  intro s v
  exact Mute.forEach (fun x => mute_snapshotVisit (env := env) x) (walk s.graph (env.ord s.trace 1) none none) s v

theorem mute_flush : Mute Eq (flush env) (flush env) := Mute.before (fun s => { s with snap := fun _ => none }) (fun _ _ => rfl) mute_updateSnapshot

theorem mute_unDirty : Mute Eq (unDirty env) (unDirty env) := by
  intro s v
  refine Mute.forEach (f1 := fun x : Visit Node => M.modify fun s => match x.entity with | none => s | some p => { s with heap := s.heap.setAttr p fun a => { a with dirty := false } }) (f2 := fun x : Visit Node => M.modify fun s => match x.entity with | none => s | some p => { s with heap := s.heap.setAttr p fun a => { a with dirty := false } }) (fun x => Mute.modify _ ?_) (walk s.graph (env.ord s.trace 2) none none) s v
  intro s v
  cases x.entity <;> rfl

theorem mute_getEntityChanged : Mute Eq (getEntityChanged env opts) (getEntityChanged env opts) := by
  refine blind fun s v => ?_
  unfold getEntityChanged
  have : entityChanges env opts { s with output := v } = entityChanges env opts s := rfl
  rw [this]
  split <;> rfl

theorem mute_execHook (ct : ChangeType) (before : Bool) (n : Node) : Mute Eq (execHook env ct before n) (execHook env ct before n) := by
  refine blind fun s v => ?_
  unfold execHook
  cases n with
  | none => rfl
  | some p =>
    dsimp only
    split <;> rfl

theorem mute_runHooks (before : Bool) (cs : List (Change Node)) : Mute Eq (runHooks env before cs) (runHooks env before cs) :=
  Mute.forEach (fun (c : Change Node) => Mute.forEach (fun n => mute_execHook c.ctype before n) _) _

theorem mute_putNewID (cs : List (Change Node)) : Mute Eq (putNewID env cs) (putNewID env cs) := by
  refine Mute.forEach (fun c => ?_) _
  split
  · refine Mute.forEach (fun n => ?_) _
    refine blind fun s v => ?_
    unfold putID
    cases n with
    | none => rfl
    | some p =>
      dsimp only
      split
      · unfold M.bind M.ext
        dsimp only
        cases env.newID s.trace <;> rfl
      · rfl
  · exact Mute.pure ()

theorem mute_actStep (c : Change Node) (n : Node) (acc : ActAcc) : Mute Eq (actStep env c n acc) (actStep env c n acc) := by
  refine blind fun s v => ?_
  unfold actStep convert
  dsimp only
  cases env.conv s.trace s.heap n (some c.parent) c.ctype.op with
  | panic => rfl
  | err e => dsimp only; split <;> rfl
  | ok m =>
    simp only [St.log]
    split
    · cases s.snap n <;> rfl
    · rfl

theorem mute_makeActions (cs : List (Change Node)) : Mute Eq (makeActions env cs) (makeActions env cs) := by
  have h1 : ∀ (c : Change Node) (ns : List Node) (acc : ActAcc), Mute Eq (actLoop env c ns acc) (actLoop env c ns acc) := by
    intro c ns
    induction ns with
    | nil => exact fun acc => Mute.pure acc
    | cons n ns ih => exact fun acc => Mute.bind (mute_actStep c n acc) fun acc => ih acc
  have h2 : ∀ acc, Mute Eq (actLoops env cs acc) (actLoops env cs acc) := by
    induction cs with
    | nil => exact fun acc => Mute.pure acc
    | cons c cs ih => exact fun acc => Mute.bind (h1 c _ acc) fun acc => ih acc
  exact Mute.bind (h2 _) fun acc => Mute.pure _

theorem mute_exec (as : List Action) : Mute Eq (exec env opts as) (exec env opts as) := by
  unfold exec
  split
  · exact Mute.pure ()
  · exact Mute.bind (Mute.forEach (fun x => blind fun _ _ => rfl) _) fun _ => Mute.modify _ fun _ _ => rfl

theorem mute_persist : Mute Eq (persist env opts) (persist env opts) :=
  Mute.bind mute_getEntityChanged fun cs => Mute.bind (mute_runHooks true cs) fun _ => Mute.bind (mute_putNewID cs) fun _ => Mute.bind (mute_makeActions cs) fun as =>
    Mute.bind (mute_exec as) fun _ => Mute.bind (mute_runHooks false cs) fun _ => Mute.modify (fun s => { s with deleted := s.deleted ++ (cs.filter fun c => decide (c.ctype = .delete)).flatMap Change.children }) fun _ _ => rfl

theorem mute_commitSave : Mute Eq (commitSave env opts) (commitSave env opts) := by
  have h2 : Mute Eq (M.bind (flush env) fun _ => unDirty env) (M.bind (flush env) fun _ => unDirty env) := Mute.bind mute_flush fun _ => mute_unDirty
  have h1 : Mute Eq (M.bind (persist env opts) fun _ => M.bind (flush env) fun _ => unDirty env) (M.bind (persist env opts) fun _ => M.bind (flush env) fun _ => unDirty env) := Mute.bind mute_persist fun _ => h2
  exact h1

theorem mute_containerAdd (r : Ptr) : Mute Eq (containerAdd r) (containerAdd r) := blind fun s v => by unfold containerAdd; dsimp only; split <;> rfl
theorem mute_containerRemove (r : Ptr) : Mute Eq (containerRemove r) (containerRemove r) := blind fun s v => by unfold containerRemove; dsimp only; split <;> rfl

theorem mute_buildEntity (r : Ptr) : Mute Eq (buildEntity env r) (buildEntity env r) := blind fun s v => by unfold buildEntity; dsimp only; split <;> rfl

theorem mute_repoGet (r : Ptr) : Mute Eq (repoGet env r) (repoGet env r) := by
  have h : Mute Eq (M.bind (buildEntity env r) fun _ => M.bind (containerAdd r) fun _ => updateSnapshot env) (M.bind (buildEntity env r) fun _ => M.bind (containerAdd r) fun _ => updateSnapshot env) :=
    Mute.bind (mute_buildEntity r) fun _ => Mute.bind (mute_containerAdd r) fun _ => mute_updateSnapshot
  intro s v
  unfold repoGet
  have hs : St.hasSnapshot { s with output := v } r = s.hasSnapshot r := rfl
  rw [hs]
  split
  · exact ⟨rfl, v, rfl⟩
  · exact h s v

theorem mute_repoCustomGet (g : Heap → Heap) (rs : List Ptr) : Mute Eq (repoCustomGet env g rs) (repoCustomGet env g rs) := by
  have h : Mute Eq (M.bind (M.modify fun s => { s with heap := g s.heap }) fun _ => M.bind (M.forEach rs customAdd) fun _ => updateSnapshot env) (M.bind (M.modify fun s => { s with heap := g s.heap }) fun _ => M.bind (M.forEach rs customAdd) fun _ => updateSnapshot env) := by
    refine Mute.bind (Mute.modify _ fun _ _ => rfl) fun _ => Mute.bind (Mute.forEach (fun r => ?_) _) fun _ => mute_updateSnapshot
    intro s v
    unfold customAdd
    have hs : St.hasSnapshot { s with output := v } r = s.hasSnapshot r := rfl
    rw [hs]
    split
    · exact ⟨rfl, v, rfl⟩
    · exact mute_containerAdd r s v
  exact h

theorem mute_appendErr (e : Err) : Mute Eq (appendErr e) (appendErr e) := Mute.modify _ fun _ _ => rfl

theorem mute_repoAdd (rs : List Ptr) : Mute Eq (repoAdd rs) (repoAdd rs) := by
  induction rs with
  | nil => exact Mute.pure ()
  | cons r rs ih =>
    intro s v
    unfold repoAdd
    have hs : St.hasSnapshot { s with output := v } r = s.hasSnapshot r := rfl
    simp only [hs]
    split
    · exact mute_appendErr _ s v
    · unfold containerAdd
      by_cases hr : r ∈ s.roots
      · simp only [hr, if_true]; exact mute_appendErr _ s v
      · simp only [hr, if_false]; exact ih { s with roots := s.roots ++ [r] } v

theorem mute_repoRemoveLoop (rs : List Ptr) : Mute Eq (repoRemoveLoop rs) (repoRemoveLoop rs) := by
  induction rs with
  | nil => exact Mute.pure ()
  | cons r rs ih =>
    intro s v
    unfold repoRemoveLoop containerRemove
    by_cases hr : r ∈ s.roots
    · simp only [hr, if_true]; exact ih { s with roots := s.roots.filter fun x => decide (x ≠ r), deleted := s.deleted ++ [some r] } v
    · simp only [hr, if_false]; exact mute_appendErr _ s v

theorem mute_repoRemove (rs : List Ptr) : Mute Eq (repoRemove env rs) (repoRemove env rs) := by
  intro s v
  unfold repoRemove
  dsimp only
  split
  · exact mute_repoRemoveLoop rs s v
  · have h := Mute.seq (mute_repoAdd (rs.filter fun r => decide (r ∉ s.roots)))
      (f1 := fun x s1 => match x with | .panic => (.panic, s1) | _ => match updateSnapshot env s1 with | (.panic, s2) => (.panic, s2) | (.err e, s2) => appendErr e s2 | (.ok _, s2) => repoRemoveLoop rs s2)
      (f2 := fun x s1 => match x with | .panic => (.panic, s1) | _ => match updateSnapshot env s1 with | (.panic, s2) => (.panic, s2) | (.err e, s2) => appendErr e s2 | (.ok _, s2) => repoRemoveLoop rs s2) (σ := Eq) ?_ s v
    · beta_reduce at h
      revert h
      cases repoAdd (rs.filter fun r => decide (r ∉ s.roots)) s with | mk a b =>
      cases repoAdd (rs.filter fun r => decide (r ∉ s.roots)) { s with output := v } with | mk c d =>
      cases a <;> cases c <;> exact id
    · rintro x _ rfl
      have h2 := Mute.seq (mute_updateSnapshot (env := env))
        (f1 := fun y s2 => match y with | .panic => (.panic, s2) | .err e => appendErr e s2 | .ok _ => repoRemoveLoop rs s2)
        (f2 := fun y s2 => match y with | .panic => (.panic, s2) | .err e => appendErr e s2 | .ok _ => repoRemoveLoop rs s2) (σ := Eq) (by
          rintro y _ rfl
          cases y with
          | panic => exact const _
          | err e => exact mute_appendErr e
          | ok u => exact mute_repoRemoveLoop rs)
      have h3 := h2.congr (n1 := fun s1 => match updateSnapshot env s1 with | (.panic, s2) => (.panic, s2) | (.err e, s2) => appendErr e s2 | (.ok _, s2) => repoRemoveLoop rs s2)
        (n2 := fun s1 => match updateSnapshot env s1 with | (.panic, s2) => (.panic, s2) | (.err e, s2) => appendErr e s2 | (.ok _, s2) => repoRemoveLoop rs s2)
        (by funext s1; rcases updateSnapshot env s1 with ⟨_ | _ | _, _⟩ <;> rfl) (by funext s1; rcases updateSnapshot env s1 with ⟨_ | _ | _, _⟩ <;> rfl)
      cases x with
      | panic => exact const _
      | err e => exact h3
      | ok u => exact h3

theorem mute_repoSave : Mute Eq (repoSave env opts) (repoSave env opts) := by
  intro s v
  unfold repoSave
  dsimp only
  split
  · exact ⟨rfl, v, rfl⟩
  · exact mute_commitSave s v

theorem mute_enterRoots (rs : List Ptr) : Mute Eq (enterRoots env rs) (enterRoots env rs) := by
  intro s v
  unfold enterRoots
  dsimp only
  split
  · exact ⟨rfl, v, rfl⟩
  · exact mute_flush { s with roots := rs } v

theorem mute_runProg (main : Prog) : Mute Eq (runProg env opts main) (runProg env opts (muteProg main)) := by
  induction main with
  | ret r => cases r <;> exact const _
  | panic => exact const _
  | mutate f k ih => exact Mute.before (fun s => { s with heap := f s.heap }) (fun _ _ => rfl) ih
  | look k ih => intro s v; exact ih s.heap s v
  | get r k ih => exact Mute.bind (Mute.attempt (mute_repoGet r)) fun e => ih e
  | customGet g rs k ih => exact Mute.bind (Mute.attempt (mute_repoCustomGet g rs)) fun e => ih e
  | add rs k ih => exact Mute.bind (mute_repoAdd rs) fun _ => ih
  | remove rs k ih => exact Mute.bind (mute_repoRemove rs) fun _ => ih
  | save k ih => exact Mute.bind (Mute.attempt mute_repoSave) fun e => ih e
  | commit k ih => exact Mute.bind (Mute.attempt mute_commitSave) fun e => ih e
  | output x k ih => intro s v; exact ih { s with output := x } v
  | build r k ih => exact Mute.bind (Mute.attempt (mute_buildEntity r)) fun e => ih e
  | enter rs k ih => exact Mute.bind (mute_enterRoots rs) fun _ => ih
  | cAdd r k ih => exact Mute.bind (Mute.attempt (mute_containerAdd r)) fun _ => ih
  | cRemove r k ih => exact Mute.bind (Mute.attempt (mute_containerRemove r)) fun _ => ih

theorem mute_runInit (i : IProg) : Mute Eq (runInit env opts true i) (runInit env opts true (muteInit i)) := by
  induction i with
  | done ks => exact const _
  | fail e => exact const _
  | panic => exact const _
  | mutate f k ih => exact Mute.before (fun s => { s with heap := f s.heap }) (fun _ _ => rfl) ih
  | look k ih => intro s v; exact ih s.heap s v
  | commit k ih =>
    simp only [runInit, muteInit, if_true]
    exact Mute.bind (Mute.attempt mute_commitSave) fun e => ih e
  | output x k ih =>
    intro s v
    simp only [runInit, muteInit, if_true]
    exact ih { s with output := x } v

theorem mute_body (act : List Ptr → Prog) (b : BProg) : body (fun rs => muteProg (act rs)) (muteBuild b) = muteProg (body act b) := by
  induction b with
  | done rs => rfl
  | fail e => rfl
  | panic => rfl
  | mutate f k ih => simp only [muteBuild, body, muteProg, ih]
  | look k ih => simp only [muteBuild, body, muteProg, ih]
  | build r k ih => simp only [muteBuild, body, muteProg, ih]
  | commit k ih => simp only [muteBuild, body, muteProg, ih]
  | output v k ih => simp only [muteBuild, body, muteProg, ih]

theorem mute_eventModels (es : List Event) : Mute Eq (eventModels env es) (eventModels env es) := by
  induction es with
  | nil => exact Mute.pure _
  | cons e es ih => exact Mute.bind (blind fun _ _ => rfl) fun m => Mute.bind ih fun ms => Mute.pure _

theorem mute_persistEvents (es : List Event) : Mute Eq (persistEvents env opts es) (persistEvents env opts es) := by
  refine (Mute.seq (mute_eventModels (env := env) es) (f1 := fun r s => match r with | .ok ms => exec env opts [{ op := .insert, models := ms, prev := [] }] s | .err e => (.err (.errList [e]), s) | .panic => (.panic, s)) (f2 := fun r s => match r with | .ok ms => exec env opts [{ op := .insert, models := ms, prev := [] }] s | .err e => (.err (.errList [e]), s) | .panic => (.panic, s)) ?_).congr ?_ ?_
  · rintro r _ rfl
    cases r with
    | ok ms => exact mute_exec _
    | err e => exact const _
    | panic => exact const _
  all_goals
    funext s
    unfold persistEvents
    rcases eventModels env es s with ⟨_ | _ | _, _⟩ <;> rfl

theorem mute_busBegin (es : List Event) : Mute Eq (busBegin env es) (busBegin env es) := by
  refine blind fun s v => ?_
  unfold busBegin
  dsimp only
  cases (env.dispatchBegin s.trace es).2 <;> rfl

theorem mute_dispatchEvents (es : List Event) : Mute Eq (dispatchEvents env opts es) (dispatchEvents env opts es) := by
  unfold dispatchEvents
  split
  · exact Mute.pure _
  · split
    · exact blind fun _ _ => rfl
    · refine Mute.bind ?_ fun _ => ?_
      · split
        · exact mute_busBegin _
        · exact Mute.pure _
      · split
        · exact blind fun _ _ => rfl
        · exact Mute.pure _

theorem mute_sendEvents (es : List Event) : Mute Eq (sendEvents env opts es) (sendEvents env opts es) := by
  unfold sendEvents
  split
  · exact const _
  · refine (Mute.seq (mute_dispatchEvents (env := env) (opts := opts) es) (f1 := fun r s => inErrList (r, s)) (f2 := fun r s => inErrList (r, s)) ?_).congr rfl rfl
    rintro r _ rfl
    cases r <;> exact const _

theorem mute_finishEvents : Mute Eq (finishEvents env opts) (finishEvents env opts) := by
  intro s v
  have he : collectEvents env { s with output := v } = collectEvents env s := rfl
  unfold finishEvents
  simp only [he]
  split
  · exact ⟨rfl, v, rfl⟩
  · refine Mute.bind ?_ (fun _ => mute_sendEvents _) s v
    split
    · exact mute_persistEvents _
    · exact Mute.pure _

theorem mute_callMain (main : Prog) : Mute Eq (callMain env opts main) (callMain env opts (muteProg main)) := by
  have h := Mute.seq (Mute.before (fun s => { s with trace := s.trace ++ [.mainStart] }) (fun _ _ => rfl) (mute_runProg (env := env) (opts := opts) main))
    (f1 := fun r s => (r, s.log (.mainRet r.stat))) (f2 := fun r s => (r, s.log (.mainRet r.stat))) (σ := Eq) (by rintro r _ rfl; exact blind fun _ _ => rfl)
  exact h

/-- outcomes that differ at most in the output -/
def SameOutcome : Option Result → Option Result → Prop
  | none, none => True
  | some r, some r' => SameResult r r'
  | _, _ => False

theorem SameOutcome.rfl' : ∀ {x : Option Result}, SameOutcome x x
  | none => trivial
  | some _ => ⟨rfl, rfl, rfl⟩

theorem constO (x : Option Result) : Mute SameOutcome (fun s => (x, s)) (fun s => (x, s)) := (const x).mono fun _ _ h => h ▸ SameOutcome.rfl'

/-- the end of a stage once the changes are persisted -/
def tailEvents (env : Env) (opts : Opts) (s2 : St) : Outcome :=
  match finishEvents env opts s2 with | (.panic, s3) => (none, s3) | (.err e, s3) => (some (resultError e), s3) | (.ok _, s3) => (some { error := none, brk := false, actions := s3.actions, output := s3.output }, s3)

/-- the end of a stage once the user's code has returned -/
def tailPersist (env : Env) (opts : Opts) (s1 : St) : Outcome :=
  match persist env opts s1 with | (.panic, s2) => (none, s2) | (.err e, s2) => (some (resultErrors e), s2) | (.ok _, s2) => tailEvents env opts s2

/-- the end of a stage, the answer of the user's code being known -/
def tailMain (env : Env) (opts : Opts) (r : Res Unit) (s1 : St) : Outcome :=
  match r with | .panic => (none, s1) | .err e => (some (resultErrOrBreak e), s1) | .ok _ => match Err.joinAll s1.errs with | some e => (some (resultError e), s1) | none => tailPersist env opts s1

theorem mute_tailEvents : Mute SameOutcome (tailEvents env opts) (tailEvents env opts) := by
  intro s v
  have h := mute_finishEvents (env := env) (opts := opts) s v
  unfold tailEvents
  generalize finishEvents env opts s = x at h
  generalize finishEvents env opts { s with output := v } = y at h
  obtain ⟨r, s2⟩ := x
  obtain ⟨r', t2⟩ := y
  obtain ⟨h1, w, h2⟩ := h
  simp only at h1 h2
  subst h1 h2
  cases r with
  | panic => exact ⟨trivial, w, rfl⟩
  | err e => exact ⟨⟨rfl, rfl, rfl⟩, w, rfl⟩
  | ok u => exact ⟨⟨rfl, rfl, rfl⟩, w, rfl⟩

theorem mute_tailPersist : Mute SameOutcome (tailPersist env opts) (tailPersist env opts) := by
  intro s v
  have h := mute_persist (env := env) (opts := opts) s v
  unfold tailPersist
  generalize persist env opts s = x at h
  generalize persist env opts { s with output := v } = y at h
  obtain ⟨r, s2⟩ := x
  obtain ⟨r', t2⟩ := y
  obtain ⟨h1, w, h2⟩ := h
  simp only at h1 h2
  subst h1 h2
  cases r with
  | panic => exact ⟨trivial, w, rfl⟩
  | err e => exact ⟨⟨rfl, rfl, rfl⟩, w, rfl⟩
  | ok u => exact mute_tailEvents s2 w

theorem mute_tailMain (r : Res Unit) : Mute SameOutcome (tailMain env opts r) (tailMain env opts r) := by
  intro s v
  cases r with
  | panic => exact ⟨trivial, v, rfl⟩
  | err e => exact ⟨⟨rfl, rfl, rfl⟩, v, rfl⟩
  | ok u =>
    unfold tailMain
    dsimp only
    cases Err.joinAll s.errs with
    | some e => exact ⟨⟨rfl, rfl, rfl⟩, v, rfl⟩
    | none => exact mute_tailPersist s v

theorem doStage_tail (main : Prog) (s : St) : doStage env opts main s = tailMain env opts (callMain env opts main s).1 (callMain env opts main s).2 := by
  unfold doStage tailMain
  generalize callMain env opts main s = x
  obtain ⟨r, s1⟩ := x
  cases r with
  | panic => rfl
  | err e => rfl
  | ok u =>
    dsimp only
    cases Err.joinAll s1.errs with
    | some e => rfl
    | none =>
      dsimp only
      unfold tailPersist
      generalize persist env opts s1 = x
      obtain ⟨r, s2⟩ := x
      cases r with
      | panic => rfl
      | err e => rfl
      | ok u => rfl

theorem mute_doStage (main : Prog) : Mute SameOutcome (doStage env opts main) (doStage env opts (muteProg main)) := by
  intro s v
  rw [doStage_tail, doStage_tail]
  have h := mute_callMain (env := env) (opts := opts) main s v
  generalize callMain env opts main s = x at h
  generalize callMain env opts (muteProg main) { s with output := v } = y at h
  obtain ⟨r, s2⟩ := x
  obtain ⟨r', t2⟩ := y
  obtain ⟨h1, w, h2⟩ := h
  simp only at h1 h2
  subst h1 h2
  exact mute_tailMain r s2 w

theorem mute_recoverRollback : Mute SameOutcome (recoverRollback env) (recoverRollback env) := (blind (m := recoverRollback env) fun _ _ => rfl).mono fun _ _ h => h ▸ SameOutcome.rfl'

/-- the end of a transaction -/
theorem mute_bus {f : Trace → Res Unit} {mk : Stat → Call} (r r' : Result) (hr : SameResult r r') :
    Mute SameOutcome (fun s3 => if busPending opts s3 then match callOut f mk s3 with | (.panic, s4) => recoverRollback env s4 | (_, s4) => (some r, s4) else (some r, s3))
      (fun s3 => if busPending opts s3 then match callOut f mk s3 with | (.panic, s4) => recoverRollback env s4 | (_, s4) => (some r', s4) else (some r', s3)) := by
  intro s v
  have hb : busPending opts { s with output := v } = busPending opts s := rfl
  simp only [hb]
  split
  · simp only [callOut]
    cases f s.trace with
    | panic => exact mute_recoverRollback _ v
    | err e => exact ⟨hr, v, rfl⟩
    | ok u => exact ⟨hr, v, rfl⟩
  · exact ⟨hr, v, rfl⟩

theorem mute_runWithTransaction {f1 f2 : St → Outcome} (hf : Mute SameOutcome f1 f2) : Mute SameOutcome (runWithTransaction env opts f1) (runWithTransaction env opts f2) := by
  intro s v
  unfold runWithTransaction
  simp only [callOut]
  cases env.begin_ s.trace with
  | panic => exact constO none (s.log _) v
  | err e => exact constO (some (resultErrors e)) (s.log _) v
  | ok u =>
    dsimp only
    have h := hf (s.log (.begin (Res.ok u).stat)) v
    have hl : ({ s with output := v } : St).log (.begin (Res.ok u).stat) = { s.log (.begin (Res.ok u).stat) with output := v } := rfl
    rw [hl]
    generalize f1 (s.log (.begin (Res.ok u).stat)) = x at h
    generalize f2 { s.log (.begin (Res.ok u).stat) with output := v } = y at h
    obtain ⟨r, s2⟩ := x
    obtain ⟨r', t2⟩ := y
    obtain ⟨h1, w, h2⟩ := h
    simp only at h1 h2
    subst h2
    cases r with
    | none =>
      cases r' with
      | some r' => exact h1.elim
      | none => exact mute_recoverRollback s2 w
    | some r =>
      cases r' with
      | none => exact h1.elim
      | some r' =>
        have he : (r'.error.isSome || r'.brk) = (r.error.isSome || r.brk) := by rw [h1.1, h1.2.1]
        simp only [he]
        split
        · cases env.rollback s2.trace with
          | panic => exact mute_recoverRollback (s2.log _) w
          | err e => exact mute_bus (env := env) (opts := opts) r r' h1 (s2.log _) w
          | ok u => exact mute_bus (env := env) (opts := opts) r r' h1 (s2.log _) w
        · cases env.commit s2.trace with
          | panic => exact mute_recoverRollback (s2.log _) w
          | err e => exact ⟨⟨rfl, h1.2.1, h1.2.2⟩, w, rfl⟩
          | ok u => exact mute_bus (env := env) (opts := opts) r r' h1 (s2.log _) w

theorem mute_acquire (ks : List Nat) : ∀ (got : List Nat) (s : St) (v : Nat),
    (acquire env ks got { s with output := v }) = ((acquire env ks got s).1, (acquire env ks got s).2.1, { (acquire env ks got s).2.2 with output := v }) := by
  induction ks with
  | nil => intro got s v; rfl
  | cons k ks ih =>
    intro got s v
    simp only [acquire, callOut]
    cases env.lock s.trace k with
    | ok u => exact ih _ (s.log _) v
    | err e => rfl
    | panic => rfl

theorem mute_releaseAll (ks : List Nat) : Mute Eq (releaseAll env ks) (releaseAll env ks) := by
  induction ks with
  | nil => exact const _
  | cons k ks ih =>
    intro s v
    simp only [releaseAll, callOut]
    cases env.unlock s.trace k with
    | panic => exact ⟨rfl, v, rfl⟩
    | ok u => exact ih (s.log _) v
    | err e => exact ih (s.log _) v

theorem mute_postSaves (hs : List Nat) : Mute Eq (postSaves env hs) (postSaves env hs) := by
  induction hs with
  | nil => exact const _
  | cons k ks ih =>
    intro s v
    simp only [postSaves, callOut]
    cases env.postSave s.trace k with
    | panic => exact ⟨rfl, v, rfl⟩
    | ok u => exact ih (s.log _) v
    | err e => exact ih (s.log _) v

theorem mute_finish {got : List Nat} {r r' : Option Result} (hr : SameOutcome r r') :
    Mute SameOutcome (fun s2 => match releaseAll env got s2 with | (true, s3) => (r, s3) | (false, s3) => (none, s3)) (fun s2 => match releaseAll env got s2 with | (true, s3) => (r', s3) | (false, s3) => (none, s3)) := by
  intro s v
  have h := mute_releaseAll (env := env) got s v
  dsimp only
  generalize releaseAll env got s = x at h
  generalize releaseAll env got { s with output := v } = y at h
  obtain ⟨a, s2⟩ := x
  obtain ⟨b, t2⟩ := y
  obtain ⟨h1, w, h2⟩ := h
  simp only at h1 h2
  subst h1 h2
  cases a
  · exact ⟨trivial, w, rfl⟩
  · exact ⟨hr, w, rfl⟩

theorem mute_runOnLock {f1 f2 : St → Outcome} (hf : Mute SameOutcome f1 f2) (keys : List Nat) : Mute SameOutcome (runOnLock env keys f1) (runOnLock env keys f2) := by
  intro s v
  unfold runOnLock
  dsimp only
  split
  · exact constO _ s v
  · have ha := mute_acquire (env := env) (keys.insertionSort (· ≤ ·)) [] s v
    generalize acquire env (keys.insertionSort (· ≤ ·)) [] s = x at ha
    generalize acquire env (keys.insertionSort (· ≤ ·)) [] { s with output := v } = y at ha
    subst ha
    obtain ⟨a, got, s1⟩ := x
    cases a with
    | panic => exact constO none s1 v
    | failed e => exact mute_finish (env := env) (got := got) (r := some (resultErrors e)) (r' := some (resultErrors e)) SameOutcome.rfl' s1 v
    | all =>
      have h := hf s1 v
      dsimp only
      generalize f1 s1 = x at h
      generalize f2 { s1 with output := v } = y at h
      obtain ⟨r, s2⟩ := x
      obtain ⟨r', t2⟩ := y
      obtain ⟨h1, w, h2⟩ := h
      simp only at h1 h2
      subst h2
      exact mute_finish (env := env) (got := got) h1 s2 w

theorem mute_save (keys : List Nat) (main : Prog) : Mute SameOutcome (save env opts keys main) (save env opts keys (muteProg main)) := by
  have hc : Mute SameOutcome (saveCore env opts keys main) (saveCore env opts keys (muteProg main)) := by
    unfold saveCore
    have h1 : Mute SameOutcome (if opts.withTransaction then runWithTransaction env opts (doStage env opts main) else doStage env opts main) (if opts.withTransaction then runWithTransaction env opts (doStage env opts (muteProg main)) else doStage env opts (muteProg main)) := by
      split
      · exact mute_runWithTransaction (mute_doStage main)
      · exact mute_doStage main
    dsimp only
    split
    · exact h1
    · exact mute_runOnLock h1 keys
  intro s v
  have h := hc s v
  unfold save
  generalize saveCore env opts keys main s = x at h
  generalize saveCore env opts keys (muteProg main) { s with output := v } = y at h
  obtain ⟨r, s2⟩ := x
  obtain ⟨r', t2⟩ := y
  obtain ⟨h1, w, h2⟩ := h
  simp only at h1 h2
  subst h2
  cases r with
  | none =>
    cases r' with
    | some r' => exact h1.elim
    | none => exact ⟨trivial, w, rfl⟩
  | some r =>
    cases r' with
    | none => exact h1.elim
    | some r' =>
      have he : r'.error = r.error := h1.1.symm
      simp only [he]
      split
      · have h := mute_postSaves (env := env) opts.hooks s2 w
        generalize postSaves env opts.hooks s2 = x at h
        generalize postSaves env opts.hooks { s2 with output := w } = y at h
        obtain ⟨a, s3⟩ := x
        obtain ⟨b, t3⟩ := y
        obtain ⟨h3, w', h4⟩ := h
        simp only at h3 h4
        subst h3 h4
        cases a
        · exact ⟨trivial, w', rfl⟩
        · exact ⟨h1, w', rfl⟩
      · exact ⟨h1, w, rfl⟩

end

/-- **C108** `Output` changes nothing but the output: a command with Init, Build, Act and PostSave and the same command without its calls of `Output` make the same external calls with the same answers (so: the same
writes, events, hooks, locks, commit or rollback), leave the same objects, and end alike (panic, error, broken off, writes reported). In particular what follows a call of `Output` is carried out like without it. -/
theorem C108_no_effect (env : Env) (opts : Opts) (i : IProg) (b : BProg) (a : List Ptr → Prog) (p : Nat) (h : Heap) :
    let with_ := runObj env opts (fullCommand i b a p) h
    let without := runObj env opts (fullCommand (muteInit i) (muteBuild b) (fun rs => muteProg (a rs)) p) h
    with_.2.trace = without.2.trace ∧ with_.2.heap = without.2.heap ∧
      ((with_.1 = none ∧ without.1 = none) ∨ ∃ r r', with_.1 = some r ∧ without.1 = some r' ∧ SameResult r r') := by
  have key : ∀ {x y : Outcome}, SameOutcome x.1 y.1 ∧ Mute1 x.2 y.2 → x.2.trace = y.2.trace ∧ x.2.heap = y.2.heap ∧ ((x.1 = none ∧ y.1 = none) ∨ ∃ r r', x.1 = some r ∧ y.1 = some r' ∧ SameResult r r') := by
    rintro ⟨x, s⟩ ⟨y, t⟩ ⟨h1, w, h2⟩
    simp only at h1 h2 ⊢
    subst h2
    refine ⟨rfl, rfl, ?_⟩
    cases x <;> cases y
    · exact .inl ⟨rfl, rfl⟩
    · exact h1.elim
    · exact h1.elim
    · exact .inr ⟨_, _, rfl, rfl, h1⟩
  refine key ?_
  simp only [runObj, fullCommand]
  rw [mute_body]
  have hi := mute_runInit (env := env) (opts := opts) i (.fresh h) (St.fresh h).output
  have hs : ({ St.fresh h with output := (St.fresh h).output } : St) = St.fresh h := rfl
  rw [hs] at hi
  generalize runInit env opts true i (.fresh h) = x at hi
  generalize runInit env opts true (muteInit i) (.fresh h) = y at hi
  obtain ⟨r, s⟩ := x
  obtain ⟨r', t⟩ := y
  obtain ⟨h1, w, h2⟩ := hi
  simp only at h1 h2
  subst h1 h2
  cases r with
  | ok keys => exact mute_save (env := env) (opts := { opts with hooks := opts.hooks ++ [p] }) keys (body a b) s w
  | err e => exact ⟨SameOutcome.rfl', w, rfl⟩
  | panic => exact ⟨trivial, w, rfl⟩

end Ddd
