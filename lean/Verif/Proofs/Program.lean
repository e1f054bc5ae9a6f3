import Verif.Spec.Program
import Verif.Proofs.Trace
import Verif.Spec.Trace
/-! Running user code from a visited point; lists of removed entities only grow. -/
set_option linter.unusedVariables false
set_option linter.unusedSimpArgs false
namespace Ddd
open Spec

variable {env : Env} {opts : Opts}

theorem Spec.Next.run {p p' : Prog} {s s' : St} (h : Next env opts p s p' s') : runProg env opts p s = runProg env opts p' s' := by
  cases h <;> simp only [runProg, M.bind, *]

theorem Spec.Visits.run {p p' : Prog} {s s' : St} (h : Visits env opts p s p' s') : runProg env opts p s = runProg env opts p' s' := by
  induction h with
  | here => rfl
  | step h1 _ ih => rw [h1.run, ih]

theorem Spec.Visits.trans {p1 p2 p3 : Prog} {s1 s2 s3 : St} (h1 : Visits env opts p1 s1 p2 s2) (h2 : Visits env opts p2 s2 p3 s3) :
    Visits env opts p1 s1 p3 s3 := by
  induction h1 with
  | here => exact h2
  | step h _ ih => exact .step h (ih h2)

/-- code relating the state before and after by a preorder `R`. -/
def Keeps (R : St → St → Prop) {α : Type} (m : M α) : Prop := ∀ s, R s (m s).2

/-- a preorder on states. -/
structure PreOrd (R : St → St → Prop) : Prop where
  refl : ∀ s, R s s
  trans : ∀ {a b c}, R a b → R b c → R a c

namespace Keeps
variable {R : St → St → Prop} {α β : Type}

theorem pure (hR : PreOrd R) (a : α) : Keeps R (M.pure a) := fun s => hR.refl s

theorem bind (hR : PreOrd R) {m : M α} {f : α → M β} (hm : Keeps R m) (hf : ∀ a, Keeps R (f a)) : Keeps R (M.bind m f) := by
  intro s
  have h1 := hm s
  unfold M.bind
  cases h : m s with
  | mk r s' =>
    rw [h] at h1
    cases r with
    | ok a => exact hR.trans h1 (hf a s')
    | err e => exact h1
    | panic => exact h1

theorem attempt {m : M Unit} (hm : Keeps R m) : Keeps R (M.attempt m) := by
  intro s
  have h1 := hm s
  unfold M.attempt
  cases h : m s with
  | mk r s' => rw [h] at h1; cases r <;> exact h1

theorem forEach (hR : PreOrd R) {f : α → M Unit} (hf : ∀ a, Keeps R (f a)) (l : List α) : Keeps R (M.forEach l f) := by
  induction l with
  | nil => exact pure hR ()
  | cons a l ih => exact bind hR (hf a) fun _ => ih

end Keeps

/-- what a preorder must allow for a save to respect it. -/
structure AllowsSave (R : St → St → Prop) : Prop extends PreOrd R where
  heap : ∀ s h, R s { s with heap := h }
  log : ∀ s c, R s (s.log c)
  actions : ∀ s as, R s { s with actions := s.actions ++ as }
  deleted : ∀ s l, R s { s with deleted := s.deleted ++ l }
  snap : ∀ s f, R s { s with snap := f }

/-- what a preorder must allow for every piece of user code to respect it: everything but `Repository`/container changes. -/
structure Allows (env : Env) (opts : Opts) (R : St → St → Prop) : Prop extends AllowsSave R where
  errs : ∀ s e, R s { s with errs := s.errs ++ [e] }
  output : ∀ s v, R s { s with output := v }
  add : ∀ s r, R s { s with roots := s.roots ++ [r] }
  remove : ∀ s r, R s { s with roots := s.roots.filter fun x => decide (x ≠ r), deleted := s.deleted ++ [some r] }
  enter : ∀ s rs, R s { s with roots := rs }

theorem keep_of {R : St → St → Prop} {α : Type} {m : M α} {s s' : St} {r : Res α} (h : m s = (r, s')) (hk : Keeps R m) : R s s' := by
  have := hk s; rw [h] at this; exact this

namespace AllowsSave
variable {R : St → St → Prop} (A : AllowsSave R)
include A

theorem extH {ans : St → Heap × Res Unit} {mk : Stat → Call} : Keeps R (M.extH ans mk) := fun s =>
  A.trans (A.heap s (ans s).1) (A.log _ _)

theorem snapshotVisit (v : Visit Node) : Keeps R (snapshotVisit env v) := by
  intro s
  unfold Ddd.snapshotVisit convert
  split
  · exact A.refl s
  · dsimp only
    cases env.conv s.trace s.heap v.entity v.parent .query with
    | panic => exact A.log _ _
    | ok m => exact A.trans (A.log s _) (A.snap _ _)
    | err e =>
      dsimp only
      split
      · exact A.trans (A.log s _) (A.snap _ _)
      · exact A.log _ _

theorem updateSnapshot : Keeps R (updateSnapshot env) := fun s => Keeps.forEach A.toPreOrd (A.snapshotVisit) _ s

theorem flush : Keeps R (flush env) := fun s => A.trans (A.snap s fun _ => none) (A.updateSnapshot _)

theorem unDirty : Keeps R (unDirty env) := fun s => Keeps.forEach A.toPreOrd (fun v s => by
  dsimp only [M.modify]; split
  · exact A.refl s
  · exact A.heap _ _) _ s

theorem runHooks (b cs) : Keeps R (runHooks env b cs) := by
  refine Keeps.forEach A.toPreOrd (fun c => Keeps.forEach A.toPreOrd (fun n s => ?_) _) _
  unfold execHook
  split
  · exact A.refl s
  · split
    · exact A.extH s
    · exact A.refl s

theorem putNewID (cs) : Keeps R (putNewID env cs) := by
  refine Keeps.forEach A.toPreOrd (fun c => ?_) _
  split
  · refine Keeps.forEach A.toPreOrd (fun n s => ?_) _
    unfold putID
    split
    · exact A.refl s
    · split
      · exact Keeps.bind A.toPreOrd (m := M.ext (fun s => env.newID s.trace) .newID) (fun s => A.log s _) (fun id s => A.heap s _) s
      · exact A.refl s
  · exact Keeps.pure A.toPreOrd _

theorem actStep (c n acc) : Keeps R (actStep env c n acc) := by
  intro s
  unfold Ddd.actStep convert
  dsimp only
  cases env.conv s.trace s.heap n (some c.parent) c.ctype.op with
  | panic => exact A.log _ _
  | err e => dsimp only; split <;> exact A.log _ _
  | ok m =>
    dsimp only
    split
    · split <;> exact A.log _ _
    · exact A.log _ _

theorem actLoop (c : Change Node) (ns acc) : Keeps R (actLoop env c ns acc) := by
  induction ns generalizing acc with
  | nil => exact Keeps.pure A.toPreOrd _
  | cons n ns ih => exact Keeps.bind A.toPreOrd (A.actStep c n acc) fun acc => ih acc

theorem makeActions (cs) : Keeps R (makeActions env cs) := by
  have : ∀ acc, Keeps R (actLoops env cs acc) := by
    induction cs with
    | nil => exact fun acc => Keeps.pure A.toPreOrd _
    | cons c cs ih => exact fun acc => Keeps.bind A.toPreOrd (A.actLoop c _ acc) fun acc => ih acc
  exact Keeps.bind A.toPreOrd (this _) fun _ => Keeps.pure A.toPreOrd _

theorem exec (as) : Keeps R (exec env opts as) := by
  unfold Ddd.exec
  split
  · exact Keeps.pure A.toPreOrd _
  · exact Keeps.bind A.toPreOrd (Keeps.forEach A.toPreOrd (fun a s => A.log s _) _) fun _ s => A.actions s as

theorem getEntityChanged : Keeps R (getEntityChanged env opts) := by
  intro s; unfold Ddd.getEntityChanged; split <;> exact A.refl s

theorem persist : Keeps R (persist env opts) := by
  refine Keeps.bind A.toPreOrd A.getEntityChanged fun cs => Keeps.bind A.toPreOrd (A.runHooks true cs) fun _ =>
    Keeps.bind A.toPreOrd (A.putNewID cs) fun _ => Keeps.bind A.toPreOrd (A.makeActions cs) fun as =>
    Keeps.bind A.toPreOrd (A.exec as) fun _ => Keeps.bind A.toPreOrd (A.runHooks false cs) fun _ s => ?_
  exact A.deleted s _

theorem commitSave : Keeps R (commitSave env opts) :=
  Keeps.bind A.toPreOrd A.persist fun _ => Keeps.bind A.toPreOrd A.flush fun _ => A.unDirty

end AllowsSave

namespace Allows
variable {R : St → St → Prop} (A : Allows env opts R)
include A

theorem containerAdd (r) : Keeps R (containerAdd r) := by
  intro s; unfold Ddd.containerAdd; split
  · exact A.refl s
  · exact A.add s r

theorem containerRemove (r) : Keeps R (containerRemove r) := by
  intro s; unfold Ddd.containerRemove; split
  · exact A.remove s r
  · exact A.refl s

theorem buildEntity (r) : Keeps R (buildEntity env r) := by
  intro s; unfold Ddd.buildEntity; split
  · exact A.refl s
  · exact A.extH s

theorem repoGet (r) : Keeps R (repoGet env r) := by
  intro s; unfold Ddd.repoGet; split
  · exact A.refl s
  · exact Keeps.bind A.toPreOrd (A.buildEntity r) (fun _ => Keeps.bind A.toPreOrd (A.containerAdd r) fun _ => A.updateSnapshot) s

theorem repoCustomGet (g rs) : Keeps R (repoCustomGet env g rs) := by
  refine Keeps.bind A.toPreOrd (m := M.modify fun s => { s with heap := g s.heap }) (fun s => A.heap s _) fun _ =>
    Keeps.bind A.toPreOrd (m := M.forEach rs customAdd) (Keeps.forEach A.toPreOrd (fun r s => ?_) _) fun _ => A.updateSnapshot
  unfold customAdd; split
  · exact A.refl s
  · exact A.containerAdd r s

theorem repoAdd (rs) : Keeps R (repoAdd rs) := by
  induction rs with
  | nil => exact Keeps.pure A.toPreOrd ()
  | cons r rs ih =>
    intro s
    unfold Ddd.repoAdd
    split
    · exact A.errs s _
    · have h := A.containerAdd r s
      split
      · next h' => rw [h'] at h; exact A.trans h (A.errs _ _)
      · next h' => rw [h'] at h; exact A.trans h (ih _)

theorem repoRemoveLoop (rs) : Keeps R (repoRemoveLoop rs) := by
  induction rs with
  | nil => exact Keeps.pure A.toPreOrd ()
  | cons r rs ih =>
    intro s
    unfold Ddd.repoRemoveLoop
    have h := A.containerRemove r s
    split
    · next h' => rw [h'] at h; exact A.trans h (A.errs _ _)
    · next h' => rw [h'] at h; exact A.trans h (ih _)

theorem repoRemove (rs) : Keeps R (repoRemove env rs) := by
  intro s
  unfold Ddd.repoRemove
  dsimp only
  split
  · exact A.repoRemoveLoop rs s
  · have h := A.repoAdd (rs.filter fun r => decide (r ∉ s.roots)) s
    split
    · next h' => rw [h'] at h; exact h
    · next h' =>
      rw [h'] at h
      have h2 := A.updateSnapshot (env := env) (by assumption : St)
      split
      · next h'' => rw [h''] at h2; exact A.trans h h2
      · next h'' => rw [h''] at h2; exact A.trans (A.trans h h2) (A.errs _ _)
      · next h'' => rw [h''] at h2; exact A.trans (A.trans h h2) (A.repoRemoveLoop _ _)

theorem repoSave : Keeps R (repoSave env opts) := by
  intro s
  unfold Ddd.repoSave
  split
  · exact A.refl s
  · exact A.commitSave s

theorem enterRoots (rs) : Keeps R (enterRoots env rs) := by
  intro s
  unfold Ddd.enterRoots
  split
  · exact A.refl s
  · exact A.trans (A.enter s rs) (A.flush _)

theorem runProg (main : Prog) : Keeps R (runProg env opts main) := by
  induction main with
  | ret r => cases r <;> exact fun s => A.refl s
  | panic => exact fun s => A.refl s
  | mutate f k ih => exact fun s => A.trans (A.heap s _) (ih _)
  | look k ih => exact fun s => ih s.heap s
  | get r k ih => exact Keeps.bind A.toPreOrd (Keeps.attempt (A.repoGet r)) fun e => ih e
  | customGet g rs k ih => exact Keeps.bind A.toPreOrd (Keeps.attempt (A.repoCustomGet g rs)) fun e => ih e
  | add rs k ih => exact Keeps.bind A.toPreOrd (A.repoAdd rs) fun _ => ih
  | remove rs k ih => exact Keeps.bind A.toPreOrd (A.repoRemove rs) fun _ => ih
  | save k ih => exact Keeps.bind A.toPreOrd (Keeps.attempt A.repoSave) fun e => ih e
  | commit k ih => exact Keeps.bind A.toPreOrd (Keeps.attempt A.commitSave) fun e => ih e
  | output v k ih => exact fun s => A.trans (A.output s v) (ih _)
  | build r k ih => exact Keeps.bind A.toPreOrd (Keeps.attempt (A.buildEntity r)) fun e => ih e
  | enter rs k ih => exact Keeps.bind A.toPreOrd (A.enterRoots rs) fun _ => ih
  | cAdd r k ih => exact Keeps.bind A.toPreOrd (Keeps.attempt (A.containerAdd r)) fun _ => ih
  | cRemove r k ih => exact Keeps.bind A.toPreOrd (Keeps.attempt (A.containerRemove r)) fun _ => ih

theorem next {p p' : Prog} {s s' : St} (h : Next env opts p s p' s') : R s s' := by
  cases h with
  | mutate => exact A.heap _ _
  | look => exact A.refl _
  | output => exact A.output _ _
  | get h => exact keep_of h (Keeps.attempt (A.repoGet _))
  | customGet h => exact keep_of h (Keeps.attempt (A.repoCustomGet _ _))
  | add h => exact keep_of h (A.repoAdd _)
  | remove h => exact keep_of h (A.repoRemove _)
  | save h => exact keep_of h (Keeps.attempt A.repoSave)
  | commit h => exact keep_of h (Keeps.attempt A.commitSave)
  | build h => exact keep_of h (Keeps.attempt (A.buildEntity _))
  | enter h => exact keep_of h (A.enterRoots _)
  | cAdd h => exact keep_of h (Keeps.attempt (A.containerAdd _))
  | cRemove h => exact keep_of h (Keeps.attempt (A.containerRemove _))

theorem visits {p p' : Prog} {s s' : St} (h : Visits env opts p s p' s') : R s s' := by
  induction h with
  | here => exact A.refl _
  | step h _ ih => exact A.trans (A.next h) ih

end Allows

theorem allows_deleted : Allows env opts (fun a b => a.deleted <+: b.deleted) where
  refl s := List.prefix_refl _
  trans h1 h2 := h1.trans h2
  heap _ _ := List.prefix_refl _
  log _ _ := List.prefix_refl _
  errs _ _ := List.prefix_refl _
  output _ _ := List.prefix_refl _
  add _ _ := List.prefix_refl _
  remove _ _ := List.prefix_append _ _
  enter _ _ := List.prefix_refl _
  actions _ _ := List.prefix_refl _
  deleted _ _ := List.prefix_append _ _
  snap _ _ := List.prefix_refl _

theorem allows_errs : Allows env opts (fun a b => a.errs <+: b.errs) where
  refl s := List.prefix_refl _
  trans h1 h2 := h1.trans h2
  heap _ _ := List.prefix_refl _
  log _ _ := List.prefix_refl _
  errs _ _ := List.prefix_append _ _
  output _ _ := List.prefix_refl _
  add _ _ := List.prefix_refl _
  remove _ _ := List.prefix_refl _
  enter _ _ := List.prefix_refl _
  actions _ _ := List.prefix_refl _
  deleted _ _ := List.prefix_refl _
  snap _ _ := List.prefix_refl _

theorem callMain_runProg (main : Prog) (keys : List Nat) (s : St) :
    (callMain env opts main (atMain opts keys s)) =
      ((runProg env opts main (atStart opts keys s)).1, (runProg env opts main (atStart opts keys s)).2.log (.mainRet (runProg env opts main (atStart opts keys s)).1.stat)) := by
  unfold callMain atMain atStart
  simp only [List.append_assoc]

end Ddd
