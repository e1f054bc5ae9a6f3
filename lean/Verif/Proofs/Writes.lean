import Verif.Proofs.Program
/-!
# Bookkeeping of executed write actions

The preorders of `Proofs/Program.lean`, for relations that connect `Result.Actions` with the trace: `exec` is one step.
-/
set_option linter.unusedVariables false
namespace Ddd
open Spec

variable {env : Env} {opts : Opts}

def isExec : Call → Bool
  | .exec .. => true
  | _ => false

/-- what the event part of a stage does. -/
structure AllowsE (env : Env) (opts : Opts) (R : St → St → Prop) : Prop extends PreOrd R where
  log : ∀ s c, isExec c = false → R s (s.log c)
  exec : ∀ as, Keeps R (Ddd.exec env opts as)
  eventCtx : ∀ s b, R s { s with eventCtx := b }

structure AllowsW (env : Env) (opts : Opts) (R : St → St → Prop) : Prop extends AllowsE env opts R where
  heap : ∀ s h, R s { s with heap := h }
  deleted : ∀ s l, R s { s with deleted := s.deleted ++ l }
  snap : ∀ s f, R s { s with snap := f }

structure AllowsWP (env : Env) (opts : Opts) (R : St → St → Prop) : Prop extends AllowsW env opts R where
  errs : ∀ s e, R s { s with errs := s.errs ++ [e] }
  add : ∀ s r, R s { s with roots := s.roots ++ [r] }
  remove : ∀ s r, R s { s with roots := s.roots.filter fun x => decide (x ≠ r), deleted := s.deleted ++ [some r] }
  enter : ∀ s rs, R s { s with roots := rs }

namespace AllowsE
variable {R : St → St → Prop} (A : AllowsE env opts R)
include A

theorem ext {α : Type} {ans : St → Res α} {mk : Stat → Call} (hmk : ∀ st, isExec (mk st) = false) : Keeps R (M.ext ans mk) := fun s => A.log _ _ (hmk _)

theorem eventModels (es) : Keeps R (eventModels env es) := by
  induction es with
  | nil => exact Keeps.pure A.toPreOrd _
  | cons e es ih => exact Keeps.bind A.toPreOrd (A.ext fun _ => rfl) fun m => Keeps.bind A.toPreOrd ih fun ms => Keeps.pure A.toPreOrd _

theorem persistEvents (es) : Keeps R (persistEvents env opts es) := by
  intro s
  have h := A.eventModels es s
  unfold Ddd.persistEvents
  split
  · next h' => rw [h'] at h; exact A.trans h (A.exec _ _)
  · next h' => rw [h'] at h; exact h
  · next h' => rw [h'] at h; exact h

theorem busBegin (es) : Keeps R (busBegin env es) := by
  intro s
  unfold Ddd.busBegin
  split
  · exact A.log _ _ rfl
  · exact A.trans (A.eventCtx s _) (A.log _ _ rfl)

theorem dispatchEvents (es) : Keeps R (dispatchEvents env opts es) := by
  unfold Ddd.dispatchEvents
  split
  · exact Keeps.pure A.toPreOrd _
  · split
    · exact A.ext fun _ => rfl
    · refine Keeps.bind A.toPreOrd ?_ fun _ => ?_
      · split
        · exact A.busBegin _
        · exact Keeps.pure A.toPreOrd _
      · split
        · exact A.ext fun _ => rfl
        · exact Keeps.pure A.toPreOrd _

theorem sendEvents (es) : Keeps R (sendEvents env opts es) := by
  intro s
  unfold Ddd.sendEvents
  split
  · exact A.refl s
  · have h := A.dispatchEvents es s
    unfold inErrList
    split
    · next h' => rw [h'] at h; exact h
    · exact h

theorem finishEvents : Keeps R (finishEvents env opts) := by
  intro s
  unfold Ddd.finishEvents
  dsimp only
  split
  · exact A.refl s
  · refine Keeps.bind A.toPreOrd ?_ (fun _ => A.sendEvents _) s
    split
    · exact A.persistEvents _
    · exact Keeps.pure A.toPreOrd _

end AllowsE

namespace AllowsW
variable {R : St → St → Prop} (A : AllowsW env opts R)
include A

theorem extH {ans : St → Heap × Res Unit} {mk : Stat → Call} (hmk : ∀ st, isExec (mk st) = false) : Keeps R (M.extH ans mk) := fun s =>
  A.trans (A.heap s (ans s).1) (A.log _ _ (hmk _))

theorem snapshotVisit (v : Visit Node) : Keeps R (snapshotVisit env v) := by
  intro s
  unfold Ddd.snapshotVisit convert
  split
  · exact A.refl s
  · dsimp only
    cases env.conv s.trace s.heap v.entity v.parent .query with
    | panic => exact A.log _ _ rfl
    | ok m => exact A.trans (A.log s _ rfl) (A.snap _ _)
    | err e =>
      dsimp only
      split
      · exact A.trans (A.log s _ rfl) (A.snap _ _)
      · exact A.log _ _ rfl

theorem updateSnapshot : Keeps R (updateSnapshot env) := fun s => Keeps.forEach A.toPreOrd (A.snapshotVisit) _ s

theorem flush : Keeps R (flush env) := fun s => A.trans (A.snap s fun _ => none) (A.updateSnapshot _)

theorem unDirty : Keeps R (unDirty env) := fun s => Keeps.forEach A.toPreOrd (fun v s => by
  dsimp only [M.modify]; split
  · exact A.refl s
  · exact A.heap _ _) _ s

theorem runHooks (b cs) : Keeps R (runHooks env b cs) := by
  refine Keeps.forEach A.toPreOrd (fun c => Keeps.forEach A.toPreOrd (fun n s => ?_) _) _
  unfold execHook
  split
  · exact A.refl s
  · split
    · exact A.extH (fun _ => rfl) s
    · exact A.refl s

theorem putNewID (cs) : Keeps R (putNewID env cs) := by
  refine Keeps.forEach A.toPreOrd (fun c => ?_) _
  split
  · refine Keeps.forEach A.toPreOrd (fun n s => ?_) _
    unfold putID
    split
    · exact A.refl s
    · split
      · exact Keeps.bind A.toPreOrd (m := M.ext (fun s => env.newID s.trace) .newID) (fun s => A.log s _ rfl) (fun id s => A.heap s _) s
      · exact A.refl s
  · exact Keeps.pure A.toPreOrd _

theorem actStep (c n acc) : Keeps R (actStep env c n acc) := by
  intro s
  unfold Ddd.actStep convert
  dsimp only
  cases env.conv s.trace s.heap n (some c.parent) c.ctype.op with
  | panic => exact A.log _ _ rfl
  | err e => dsimp only; split <;> exact A.log _ _ rfl
  | ok m =>
    dsimp only
    split
    · split <;> exact A.log _ _ rfl
    · exact A.log _ _ rfl

theorem actLoop (c : Change Node) (ns acc) : Keeps R (actLoop env c ns acc) := by
  induction ns generalizing acc with
  | nil => exact Keeps.pure A.toPreOrd _
  | cons n ns ih => exact Keeps.bind A.toPreOrd (A.actStep c n acc) fun acc => ih acc

theorem makeActions (cs) : Keeps R (makeActions env cs) := by
  have : ∀ acc, Keeps R (actLoops env cs acc) := by
    induction cs with
    | nil => exact fun acc => Keeps.pure A.toPreOrd _
    | cons c cs ih => exact fun acc => Keeps.bind A.toPreOrd (A.actLoop c _ acc) fun acc => ih acc
  exact Keeps.bind A.toPreOrd (this _) fun _ => Keeps.pure A.toPreOrd _

theorem getEntityChanged : Keeps R (getEntityChanged env opts) := by
  intro s; unfold Ddd.getEntityChanged; split <;> exact A.refl s

theorem persist : Keeps R (persist env opts) := by
  refine Keeps.bind A.toPreOrd A.getEntityChanged fun cs => Keeps.bind A.toPreOrd (A.runHooks true cs) fun _ =>
    Keeps.bind A.toPreOrd (A.putNewID cs) fun _ => Keeps.bind A.toPreOrd (A.makeActions cs) fun as =>
    Keeps.bind A.toPreOrd (A.exec as) fun _ => Keeps.bind A.toPreOrd (A.runHooks false cs) fun _ s => ?_
  exact A.deleted s _

theorem commitSave : Keeps R (commitSave env opts) :=
  Keeps.bind A.toPreOrd A.persist fun _ => Keeps.bind A.toPreOrd A.flush fun _ => A.unDirty

end AllowsW

namespace AllowsWP
variable {R : St → St → Prop} (A : AllowsWP env opts R)
include A

theorem containerAdd (r) : Keeps R (containerAdd r) := by
  intro s; unfold Ddd.containerAdd; split
  · exact A.refl s
  · exact A.add s r

theorem containerRemove (r) : Keeps R (containerRemove r) := by
  intro s; unfold Ddd.containerRemove; split
  · exact A.remove s r
  · exact A.refl s

theorem buildEntity (r) : Keeps R (buildEntity env r) := by
  intro s; unfold Ddd.buildEntity; split
  · exact A.refl s
  · exact A.extH (fun _ => rfl) s

theorem repoGet (r) : Keeps R (repoGet env r) := by
  intro s; unfold Ddd.repoGet; split
  · exact A.refl s
  · exact Keeps.bind A.toPreOrd (A.buildEntity r) (fun _ => Keeps.bind A.toPreOrd (A.containerAdd r) fun _ => A.updateSnapshot) s

theorem repoCustomGet (g rs) : Keeps R (repoCustomGet env g rs) := by
  refine Keeps.bind A.toPreOrd (m := M.modify fun s => { s with heap := g s.heap }) (fun s => A.heap s _) fun _ =>
    Keeps.bind A.toPreOrd (m := M.forEach rs customAdd) (Keeps.forEach A.toPreOrd (fun r s => ?_) _) fun _ => A.updateSnapshot
  unfold customAdd; split
  · exact A.refl s
  · exact A.containerAdd r s

theorem repoAdd (rs) : Keeps R (repoAdd rs) := by
  induction rs with
  | nil => exact Keeps.pure A.toPreOrd ()
  | cons r rs ih =>
    intro s
    unfold Ddd.repoAdd
    split
    · exact A.errs s _
    · have h := A.containerAdd r s
      split
      · next h' => rw [h'] at h; exact A.trans h (A.errs _ _)
      · next h' => rw [h'] at h; exact A.trans h (ih _)

theorem repoRemoveLoop (rs) : Keeps R (repoRemoveLoop rs) := by
  induction rs with
  | nil => exact Keeps.pure A.toPreOrd ()
  | cons r rs ih =>
    intro s
    unfold Ddd.repoRemoveLoop
    have h := A.containerRemove r s
    split
    · next h' => rw [h'] at h; exact A.trans h (A.errs _ _)
    · next h' => rw [h'] at h; exact A.trans h (ih _)

theorem repoRemove (rs) : Keeps R (repoRemove env rs) := by
  intro s
  unfold Ddd.repoRemove
  dsimp only
  split
  · exact A.repoRemoveLoop rs s
  · have h := A.repoAdd (rs.filter fun r => decide (r ∉ s.roots)) s
    split
    · next h' => rw [h'] at h; exact h
    · next h' =>
      rw [h'] at h
      have h2 := A.updateSnapshot (env := env) (by assumption : St)
      split
      · next h'' => rw [h''] at h2; exact A.trans h h2
      · next h'' => rw [h''] at h2; exact A.trans (A.trans h h2) (A.errs _ _)
      · next h'' => rw [h''] at h2; exact A.trans (A.trans h h2) (A.repoRemoveLoop _ _)

theorem repoSave : Keeps R (repoSave env opts) := by
  intro s
  unfold Ddd.repoSave
  split
  · exact A.refl s
  · exact A.commitSave s

theorem enterRoots (rs) : Keeps R (enterRoots env rs) := by
  intro s
  unfold Ddd.enterRoots
  split
  · exact A.refl s
  · exact A.trans (A.enter s rs) (A.flush _)

theorem runProg (ho : ∀ s v, R s { s with output := v }) (main : Prog) : Keeps R (runProg env opts main) := by
  induction main with
  | ret r => cases r <;> exact fun s => A.refl s
  | panic => exact fun s => A.refl s
  | mutate f k ih => exact fun s => A.trans (A.heap s _) (ih _)
  | look k ih => exact fun s => ih s.heap s
  | get r k ih => exact Keeps.bind A.toPreOrd (Keeps.attempt (A.repoGet r)) fun e => ih e
  | customGet g rs k ih => exact Keeps.bind A.toPreOrd (Keeps.attempt (A.repoCustomGet g rs)) fun e => ih e
  | add rs k ih => exact Keeps.bind A.toPreOrd (A.repoAdd rs) fun _ => ih
  | remove rs k ih => exact Keeps.bind A.toPreOrd (A.repoRemove rs) fun _ => ih
  | save k ih => exact Keeps.bind A.toPreOrd (Keeps.attempt A.repoSave) fun e => ih e
  | commit k ih => exact Keeps.bind A.toPreOrd (Keeps.attempt A.commitSave) fun e => ih e
  | output v k ih => exact fun s => A.trans (ho s v) (ih _)
  | build r k ih => exact Keeps.bind A.toPreOrd (Keeps.attempt (A.buildEntity r)) fun e => ih e
  | enter rs k ih => exact Keeps.bind A.toPreOrd (A.enterRoots rs) fun _ => ih
  | cAdd r k ih => exact Keeps.bind A.toPreOrd (Keeps.attempt (A.containerAdd r)) fun _ => ih
  | cRemove r k ih => exact Keeps.bind A.toPreOrd (Keeps.attempt (A.containerRemove r)) fun _ => ih

theorem next {p p' : Prog} {s s' : St} (ho : (∀ v k, p ≠ .output v k) ∨ ∀ s v, R s { s with output := v }) (h : Next env opts p s p' s') : R s s' := by
  cases h with
  | mutate => exact A.heap _ _
  | look => exact A.refl _
  | output => rcases ho with ho | ho
              · exact absurd rfl (ho _ _)
              · exact ho _ _
  | get h => exact keep_of h (Keeps.attempt (A.repoGet _))
  | customGet h => exact keep_of h (Keeps.attempt (A.repoCustomGet _ _))
  | add h => exact keep_of h (A.repoAdd _)
  | remove h => exact keep_of h (A.repoRemove _)
  | save h => exact keep_of h (Keeps.attempt A.repoSave)
  | commit h => exact keep_of h (Keeps.attempt A.commitSave)
  | build h => exact keep_of h (Keeps.attempt (A.buildEntity _))
  | enter h => exact keep_of h (A.enterRoots _)
  | cAdd h => exact keep_of h (Keeps.attempt (A.containerAdd _))
  | cRemove h => exact keep_of h (Keeps.attempt (A.containerRemove _))

theorem callMain (ho : ∀ s v, R s { s with output := v }) (main) : Keeps R (callMain env opts main) := by
  intro s
  unfold Ddd.callMain
  have h1 := A.log s .mainStart rfl
  have h2 := A.runProg ho main (s.log .mainStart)
  exact A.trans (A.trans h1 h2) (A.log _ _ rfl)

theorem doStage (ho : ∀ s v, R s { s with output := v }) (main : Prog) (s : St) : R s (doStage env opts main s).2 := by
  have h1 := A.callMain ho main s
  unfold Ddd.doStage
  split
  · next h => rw [h] at h1; exact h1
  · next h => rw [h] at h1; exact h1
  · next s1 h =>
    rw [h] at h1
    split
    · exact h1
    · have h2 := A.persist s1
      split
      · next h' => rw [h'] at h2; exact A.trans h1 h2
      · next h' => rw [h'] at h2; exact A.trans h1 h2
      · next s2 h' =>
        rw [h'] at h2
        have h3 := A.finishEvents s2
        split
        · next h'' => rw [h''] at h3; exact A.trans (A.trans h1 h2) h3
        · next h'' => rw [h''] at h3; exact A.trans (A.trans h1 h2) h3
        · next h'' => rw [h''] at h3; exact A.trans (A.trans h1 h2) h3

end AllowsWP
end Ddd
