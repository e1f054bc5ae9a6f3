import Verif.Proofs.Writes
import Verif.Spec.Reuse
/-!
# What a stage does to the user's objects

The preorders of `Proofs/Program.lean` once more, now telling apart the changes of the heap.
-/
set_option linter.unusedVariables false
namespace Ddd
open Spec

variable {env : Env} {opts : Opts}

structure AllowsHS (env : Env) (R : St → St → Prop) : Prop extends PreOrd R where
  touch : ∀ s h, OnlyIDs s.heap h → R s { s with heap := h }
  hook : ∀ s n k, R s { s with heap := (env.hook s.trace s.heap n k).1 }
  query : ∀ s p, R s { s with heap := (env.query s.trace s.heap p).1 }
  log : ∀ s c, R s (s.log c)
  actions : ∀ s as, R s { s with actions := s.actions ++ as }
  deleted : ∀ s l, R s { s with deleted := s.deleted ++ l }
  snap : ∀ s f, R s { s with snap := f }

structure AllowsH (env : Env) (R : St → St → Prop) : Prop extends AllowsHS env R where
  errs : ∀ s e, R s { s with errs := s.errs ++ [e] }
  output : ∀ s v, R s { s with output := v }
  add : ∀ s r, R s { s with roots := s.roots ++ [r] }
  remove : ∀ s r, R s { s with roots := s.roots.filter fun x => decide (x ≠ r), deleted := s.deleted ++ [some r] }
  enter : ∀ s rs, R s { s with roots := rs }

theorem onlyIDs_undirty (h : Heap) (p : Ptr) : OnlyIDs h (h.setAttr p fun a => { a with dirty := false }) := by
  constructor
  · rfl
  all_goals
    intro q
    simp only [Heap.setAttr]
    split <;> simp_all

theorem onlyIDs_id (h : Heap) (p : Ptr) (i : Nat) (h0 : (h.attr p).id = 0) : OnlyIDs h (h.setAttr p fun a => { a with id := i }) := by
  constructor
  · rfl
  all_goals
    intro q
    simp only [Heap.setAttr]
    split <;> simp_all

namespace AllowsHS
variable {R : St → St → Prop} (A : AllowsHS env R)
include A

theorem snapshotVisit (v : Visit Node) : Keeps R (snapshotVisit env v) := by
  intro s
  unfold Ddd.snapshotVisit convert
  split
  · exact A.refl s
  · dsimp only
    cases env.conv s.trace s.heap v.entity v.parent .query with
    | panic => exact A.log _ _
    | ok m => exact A.trans (A.log s _) (A.snap _ _)
    | err e =>
      dsimp only
      split
      · exact A.trans (A.log s _) (A.snap _ _)
      · exact A.log _ _

theorem updateSnapshot : Keeps R (updateSnapshot env) := fun s => Keeps.forEach A.toPreOrd (A.snapshotVisit) _ s

theorem flush : Keeps R (flush env) := fun s => A.trans (A.snap s fun _ => none) (A.updateSnapshot _)

theorem unDirty : Keeps R (unDirty env) := fun s => Keeps.forEach A.toPreOrd (fun v s => by
  dsimp only [M.modify]; split
  · exact A.refl s
  · exact A.touch _ _ (onlyIDs_undirty _ _)) _ s

theorem runHooks (b cs) : Keeps R (runHooks env b cs) := by
  refine Keeps.forEach A.toPreOrd (fun c => Keeps.forEach A.toPreOrd (fun n s => ?_) _) _
  unfold execHook
  split
  · exact A.refl s
  · split
    · exact A.trans (A.hook s _ _) (A.log _ _)
    · exact A.refl s

theorem putNewID (cs) : Keeps R (putNewID env cs) := by
  refine Keeps.forEach A.toPreOrd (fun c => ?_) _
  split
  · refine Keeps.forEach A.toPreOrd (fun n s => ?_) _
    unfold putID
    split
    · exact A.refl s
    · split
      · next p h0 =>
        cases hn : env.newID s.trace with
        | ok i => simp only [M.bind, M.ext, hn, M.modify]; exact A.trans (A.log s _) (A.touch (s.log _) _ (onlyIDs_id _ _ _ h0))
        | err e => simp only [M.bind, M.ext, hn]; exact A.log s _
        | panic => simp only [M.bind, M.ext, hn]; exact A.log s _
      · exact A.refl s
  · exact Keeps.pure A.toPreOrd _

theorem actStep (c n acc) : Keeps R (actStep env c n acc) := by
  intro s
  unfold Ddd.actStep convert
  dsimp only
  cases env.conv s.trace s.heap n (some c.parent) c.ctype.op with
  | panic => exact A.log _ _
  | err e => dsimp only; split <;> exact A.log _ _
  | ok m =>
    dsimp only
    split
    · split <;> exact A.log _ _
    · exact A.log _ _

theorem actLoop (c : Change Node) (ns acc) : Keeps R (actLoop env c ns acc) := by
  induction ns generalizing acc with
  | nil => exact Keeps.pure A.toPreOrd _
  | cons n ns ih => exact Keeps.bind A.toPreOrd (A.actStep c n acc) fun acc => ih acc

theorem makeActions (cs) : Keeps R (makeActions env cs) := by
  have : ∀ acc, Keeps R (actLoops env cs acc) := by
    induction cs with
    | nil => exact fun acc => Keeps.pure A.toPreOrd _
    | cons c cs ih => exact fun acc => Keeps.bind A.toPreOrd (A.actLoop c _ acc) fun acc => ih acc
  exact Keeps.bind A.toPreOrd (this _) fun _ => Keeps.pure A.toPreOrd _

theorem exec (as) : Keeps R (exec env opts as) := by
  unfold Ddd.exec
  split
  · exact Keeps.pure A.toPreOrd _
  · exact Keeps.bind A.toPreOrd (Keeps.forEach A.toPreOrd (fun a s => A.log s _) _) fun _ s => A.actions s as

theorem getEntityChanged : Keeps R (getEntityChanged env opts) := by
  intro s; unfold Ddd.getEntityChanged; split <;> exact A.refl s

theorem persist : Keeps R (persist env opts) := by
  refine Keeps.bind A.toPreOrd A.getEntityChanged fun cs => Keeps.bind A.toPreOrd (A.runHooks true cs) fun _ =>
    Keeps.bind A.toPreOrd (A.putNewID cs) fun _ => Keeps.bind A.toPreOrd (A.makeActions cs) fun as =>
    Keeps.bind A.toPreOrd (A.exec as) fun _ => Keeps.bind A.toPreOrd (A.runHooks false cs) fun _ s => ?_
  exact A.deleted s _

theorem commitSave : Keeps R (commitSave env opts) :=
  Keeps.bind A.toPreOrd A.persist fun _ => Keeps.bind A.toPreOrd A.flush fun _ => A.unDirty

end AllowsHS

namespace AllowsH
variable {R : St → St → Prop} (A : AllowsH env R)
include A

theorem containerAdd (r) : Keeps R (containerAdd r) := by
  intro s; unfold Ddd.containerAdd; split
  · exact A.refl s
  · exact A.add s r

theorem containerRemove (r) : Keeps R (containerRemove r) := by
  intro s; unfold Ddd.containerRemove; split
  · exact A.remove s r
  · exact A.refl s

theorem buildEntity (r) : Keeps R (buildEntity env r) := by
  intro s; unfold Ddd.buildEntity; split
  · exact A.refl s
  · exact A.trans (A.query s _) (A.log _ _)

theorem repoGet (r) : Keeps R (repoGet env r) := by
  intro s; unfold Ddd.repoGet; split
  · exact A.refl s
  · exact Keeps.bind A.toPreOrd (A.buildEntity r) (fun _ => Keeps.bind A.toPreOrd (A.containerAdd r) fun _ => A.updateSnapshot) s

theorem repoCustomGet (g rs) (hg : ∀ s : St, R s { s with heap := g s.heap }) : Keeps R (repoCustomGet env g rs) := by
  refine Keeps.bind A.toPreOrd (m := M.modify fun s => { s with heap := g s.heap }) hg fun _ =>
    Keeps.bind A.toPreOrd (m := M.forEach rs customAdd) (Keeps.forEach A.toPreOrd (fun r s => ?_) _) fun _ => A.updateSnapshot
  unfold customAdd; split
  · exact A.refl s
  · exact A.containerAdd r s

theorem repoAdd (rs) : Keeps R (repoAdd rs) := by
  induction rs with
  | nil => exact Keeps.pure A.toPreOrd ()
  | cons r rs ih =>
    intro s
    unfold Ddd.repoAdd
    split
    · exact A.errs s _
    · have h := A.containerAdd r s
      split
      · next h' => rw [h'] at h; exact A.trans h (A.errs _ _)
      · next h' => rw [h'] at h; exact A.trans h (ih _)

theorem repoRemoveLoop (rs) : Keeps R (repoRemoveLoop rs) := by
  induction rs with
  | nil => exact Keeps.pure A.toPreOrd ()
  | cons r rs ih =>
    intro s
    unfold Ddd.repoRemoveLoop
    have h := A.containerRemove r s
    split
    · next h' => rw [h'] at h; exact A.trans h (A.errs _ _)
    · next h' => rw [h'] at h; exact A.trans h (ih _)

theorem repoRemove (rs) : Keeps R (repoRemove env rs) := by
  intro s
  unfold Ddd.repoRemove
  dsimp only
  split
  · exact A.repoRemoveLoop rs s
  · have h := A.repoAdd (rs.filter fun r => decide (r ∉ s.roots)) s
    split
    · next h' => rw [h'] at h; exact h
    · next h' =>
      rw [h'] at h
      have h2 := A.updateSnapshot (by assumption : St)
      split
      · next h'' => rw [h''] at h2; exact A.trans h h2
      · next h'' => rw [h''] at h2; exact A.trans (A.trans h h2) (A.errs _ _)
      · next h'' => rw [h''] at h2; exact A.trans (A.trans h h2) (A.repoRemoveLoop _ _)

theorem repoSave : Keeps R (repoSave env opts) := by
  intro s
  unfold Ddd.repoSave
  split
  · exact A.refl s
  · exact A.commitSave s

theorem enterRoots (rs) : Keeps R (enterRoots env rs) := by
  intro s
  unfold Ddd.enterRoots
  split
  · exact A.refl s
  · exact A.trans (A.enter s rs) (A.flush _)

theorem runProg {G : Heap → Heap → Prop} (hG : ∀ (s : St) h, G s.heap h → R s { s with heap := h }) (main : Prog) (hm : main.Within G) :
    Keeps R (runProg env opts main) := by
  induction main with
  | ret r => cases r <;> exact fun s => A.refl s
  | panic => exact fun s => A.refl s
  | mutate f k ih => exact fun s => A.trans (hG s _ (hm.1 _)) (ih hm.2 _)
  | look k ih => exact fun s => ih s.heap (hm _) s
  | get r k ih => exact Keeps.bind A.toPreOrd (Keeps.attempt (A.repoGet r)) fun e => ih e (hm e)
  | customGet g rs k ih => exact Keeps.bind A.toPreOrd (Keeps.attempt (A.repoCustomGet g rs fun s => hG s _ (hm.1 _))) fun e => ih e (hm.2 e)
  | add rs k ih => exact Keeps.bind A.toPreOrd (A.repoAdd rs) fun _ => ih hm
  | remove rs k ih => exact Keeps.bind A.toPreOrd (A.repoRemove rs) fun _ => ih hm
  | save k ih => exact Keeps.bind A.toPreOrd (Keeps.attempt A.repoSave) fun e => ih e (hm e)
  | commit k ih => exact Keeps.bind A.toPreOrd (Keeps.attempt A.commitSave) fun e => ih e (hm e)
  | output v k ih => exact fun s => A.trans (A.output s v) (ih hm _)
  | build r k ih => exact Keeps.bind A.toPreOrd (Keeps.attempt (A.buildEntity r)) fun e => ih e (hm e)
  | enter rs k ih => exact Keeps.bind A.toPreOrd (A.enterRoots rs) fun _ => ih hm
  | cAdd r k ih => exact Keeps.bind A.toPreOrd (Keeps.attempt (A.containerAdd r)) fun _ => ih hm
  | cRemove r k ih => exact Keeps.bind A.toPreOrd (Keeps.attempt (A.containerRemove r)) fun _ => ih hm

end AllowsH
end Ddd
