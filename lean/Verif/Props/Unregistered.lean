import Verif.Props.Snapshots
import Verif.Props.Misuse
import Verif.Props.Rows
/-!
# C62 (unregistered entity types), and concrete cases for C02, C10, C11
-/
set_option linter.unusedVariables false
set_option linter.unusedSimpArgs false
namespace Ddd
open Spec

variable {env : Env} {opts : Opts} {c : Cmd} {h : Heap}

theorem ok_of_isOk {m : M Unit} {s : St} (h : (m s).1.isOk = true) : m s = (.ok (), (m s).2) := by
  generalize m s = x at *
  obtain ⟨r, s'⟩ := x
  cases r with
  | ok u => rfl
  | err e => simp [Res.isOk] at h
  | panic => simp [Res.isOk] at h

theorem attempt_of_isOk {m : M Unit} {s : St} (h : (m s).1.isOk = true) : M.attempt m s = (.ok none, (m s).2) := by
  unfold M.attempt; rw [ok_of_isOk h]

/-! ## C62 -/

/-- **C62** Loading: if unregistered types are reported with the plain `ErrEntityNotRegister` (and loading does not fail otherwise), then `Get` fails
only because the root is already tracked or added, has no ID, or its query failed. -/
theorem C62_get_fails_only_otherwise_partial (hl : LoadsModels env) {r : Ptr} {s s' : St} {e : Err} (hg : repoGet env r s = (.err e, s')) :
    (s.snap (some r)).isSome = true ∨ r ∈ s.roots ∨ (s.heap.attr r).id = 0 ∨ Call.query r .err ∈ s'.trace := by
  unfold repoGet at hg
  split at hg
  · next hs => exact .inl hs
  · have hg' : M.bind (buildEntity env r) (fun _ => M.bind (containerAdd r) fun _ => updateSnapshot env) s = (.err e, s') := hg
    clear hg
    by_cases hid : (s.heap.attr r).id = 0
    · exact .inr (.inr (.inl hid))
    · by_cases hr : r ∈ s.roots
      · exact .inr (.inl hr)
      · refine .inr (.inr (.inr ?_))
        have hb : buildEntity env r s = M.extH (fun s => env.query s.trace s.heap r) (.query r) s := by
          unfold buildEntity; rw [if_neg hid]
        unfold M.bind at hg'
        rw [hb] at hg'
        unfold M.extH at hg'
        dsimp only at hg'
        cases hq : (env.query s.trace s.heap r).2 with
        | panic => rw [hq] at hg'; simp at hg'
        | err e' =>
          rw [hq] at hg'
          simp only [Prod.mk.injEq, Res.err.injEq] at hg'
          rw [← hg'.2]
          simp [St.log, Res.stat]
        | ok u =>
          rw [hq] at hg'
          simp only at hg'
          unfold containerAdd at hg'
          rw [if_neg (by simpa [St.log] using hr)] at hg'
          exact absurd hg' (updateSnapshot_noerr hl _ _ _)

/-- **C62** Loading: a loaded entity whose type is unregistered is tracked, with its children and without a model. -/
theorem C62_get_tracks_partial {r : Ptr} {s s' : St} (hg : repoGet env r s = (.ok (), s')) {n : Node} (hn : Reach s'.now none n)
    (hnew : s.snap n = none) (hu : ∀ t par, env.conv t s'.heap n par .query = .err (.sent .notRegister)) :
    ∃ sn, s'.snap n = some sn ∧ sn.kids = s'.now n ∧ sn.po = none := by
  obtain ⟨sn, h1, h2, t, par, ⟨m, h3, _⟩ | ⟨_, h4⟩⟩ := (C10_get_records hg).1 n hn (.inr hnew)
  · rw [hu] at h3; simp at h3
  · exact ⟨sn, h1, h2, h4⟩

/-- **C62** Saving: at every point of every command a save fails only because an entity was changed in two places, or because some
external call failed; reporting an entity as unregistered (with any error wrapping `ErrEntityNotRegister`) does not count as a failure
(`Call.Good`, Spec/Trace.lean). -/
theorem C62_save_fails_only_otherwise (hl : LoadsModels env) {main p : Prog} {keys : List Nat} {s : St}
    (hv : Visits env opts main (atStart opts keys (.fresh h)) p s) (hp : (persist env opts s).1 ≠ .ok ()) :
    entityChanges env opts s = none ∨ ∃ t, (persist env opts s).2.trace = s.trace ++ t ∧ ∃ x ∈ t, ¬ x.Good := by
  rcases persist_cause env opts s (by
      intro he; apply hp
      generalize (persist env opts s).1 = r at *
      cases r <;> simp_all [Res.stat]) with h1 | h1 | ⟨cs, h1, n, par, hj, hn⟩
  · exact .inl h1
  · exact .inr h1
  · have := C11_update_has_record hl hv h1 hj
    rw [hn] at this; simp at this

/-- **C62** Saving: no row is written for an entity the converter reports as unregistered, and its hooks are still called (C60). -/
theorem C62_unregistered_no_row {s s' : St} (hs : persist env opts s = (.ok (), s')) (hd : opts.dryRun = false) :
    ∃ (t : Trace) (rs : List (Option Model)) (h2 : Heap), s'.trace = s.trace ++ t ∧ List.Forall₂ (Answered env h2) (asked t) rs ∧
      ∀ a ∈ written t, ∀ m ∈ a.models, ∃ j ∈ asked t, ∃ t', env.conv t' h2 j.node (some j.parent) j.op = .ok m := by
  obtain ⟨t, rs, h2, e, hf, hw, _⟩ := C07_every_row_written env opts hs hd
  refine ⟨t, rs, h2, e, hf, ?_⟩
  intro a ha m hm
  obtain ⟨ty, hu⟩ := hw.uniform a ha
  rw [hu, List.mem_map] at hm
  obtain ⟨en, hen, rfl⟩ := hm
  have hen := (List.mem_filter.1 hen).1
  unfold entries at hen
  rw [List.mem_filterMap] at hen
  obtain ⟨⟨j, r⟩, hz, hj⟩ := hen
  have hans : Answered env h2 j r := List.forall₂_iff_zip.1 hf |>.2 hz
  cases r with
  | none => simp [entryOf] at hj
  | some m =>
    obtain ⟨t', ht'⟩ := hans
    simp only [entryOf, Option.map_some, Option.some.injEq] at hj
    exact ⟨j, (List.of_mem_zip hz).1, t', by rw [← hj]; exact ht'⟩

/-! ## Concrete cases -/

namespace Demo

/-- entity 3 (a child of 7) has an unregistered type; `e` is the error reported for it. -/
def unregEnv (e : Err) : Env := { okEnv with conv := fun _ h n par _ => if n = some 3 then .err e else stdConv h n par }

/-- loads root 7, marks both entities dirty, saves. -/
def touch (h : Heap) : Heap := (h.setAttr 7 fun a => { a with dirty := true }).setAttr 3 fun a => { a with dirty := true }
def getTouchSave : Cmd := { init := none, main := .get 7 fun e => .mutate touch (.save fun e' => .ret (e.or e')), post := none }

/-- like `getTouchSave`, ignoring an error of `Get`. -/
def getTouchIgnore : Cmd := { init := none, main := .get 7 fun _ => .mutate touch (.save fun _ => .ret none), post := none }

end Demo
open Demo

/-- **C62**: with the plain error the unregistered child is skipped and the command succeeds with one update. -/
example : LoadsModels (unregEnv (.sent .notRegister)) := by
  intro t h n par e he
  simp only [unregEnv] at he
  split at he
  · simpa using he.symm
  · cases n with
    | none => simpa [stdConv] using he.symm
    | some p => simp [stdConv] at he

example : ((run (unregEnv (.sent .notRegister)) txOpts getTouchSave evHeap).2.trace.filterMap brief).take 6 =
      [.begin .ok, .mainStart, .query 7 .ok, .exec ⟨.update, [], []⟩ .ok, .mainRet .ok, .exec ⟨.insert, [], []⟩ .ok] ∧
    (run (unregEnv (.sent .notRegister)) txOpts getTouchSave evHeap).1.map (fun r => (r.error.isNone, r.brk)) = some (true, false) := by
  decide +kernel

/-- **C62** is false of the code for errors that wrap `ErrEntityNotRegister`: `errors.Is` is called with its arguments swapped
(`engine.go:859`), so loading an aggregate with an unregistered entity fails although the error wraps the sentinel. -/
theorem C62_wrapped_error_fails_get :
    (Err.wrap (.sent .notRegister)).is .notRegister = true ∧
    (repoGet (unregEnv (.wrap (.sent .notRegister))) 7 (.fresh evHeap)).1.isErr = true ∧
    (run (unregEnv (.wrap (.sent .notRegister))) txOpts getTouchSave evHeap).1.map (fun r => r.error.isSome) = some true := by
  decide +kernel

instance : DecidablePred Panics := fun c => by cases c <;> unfold Panics <;> infer_instance

/-- **C11** needs its assumption: if a step of loading failed (here the converter fails once, for entity 3) and `Main` goes on, the next save
looks up the record of an entity that was never recorded and panics, although no external call panicked. -/
theorem C11_failed_load_then_save_panics :
    let env : Env := { okEnv with conv := fun _ h n par op => if n = some 3 ∧ op = .query then .err (.msg 5) else stdConv h n par }
    (run env txOpts getTouchIgnore evHeap).1.isNone = true ∧ ∀ x ∈ (run env txOpts getTouchIgnore evHeap).2.trace, ¬ Panics x := by
  decide +kernel

/-! the hypotheses of C02, C10, C11 are met by `getTouchSave`: the first save writes, the final one does not -/

/-- the state after `Get` and after the edit. -/
def sGot : St := (repoGet okEnv 7 (atStart txOpts [] (.fresh evHeap))).2
def edited (s : St) : St := { s with heap := touch s.heap }
theorem edited_snap (s : St) : (edited s).snap = s.snap := rfl
def sTouched : St := edited sGot

theorem got_ok : repoGet okEnv 7 (atStart txOpts [] (.fresh evHeap)) = (.ok (), sGot) := ok_of_isOk (by decide +kernel)

theorem visits_touch {s s' : St} (h : repoGet okEnv 7 s = (.ok (), s')) :
    Visits okEnv txOpts getTouchSave.main s (.save fun e' => .ret e') (edited s') := by
  have h2 : M.attempt (repoGet okEnv 7) s = (.ok none, s') := by unfold M.attempt; rw [h]
  exact .step (.get h2) (.step (.mutate _ _ _) (.here _ _))

theorem touched_visited : Visits okEnv txOpts getTouchSave.main (atStart txOpts [] (.fresh evHeap)) (.save fun e' => .ret e') sTouched :=
  visits_touch got_ok

/-- C02: the first save is successful and writes two updates; entity 3 was recorded and is dirty (C11). -/
example : ∃ s1, repoSave okEnv txOpts sTouched = (.ok (), s1) ∧ s1.actions.map (fun a => (a.op, a.models.length)) = [(.update, 2)] :=
  ⟨(repoSave okEnv txOpts sTouched).2, ok_of_isOk (m := repoSave okEnv txOpts) (s := sTouched) (by decide +kernel), by decide +kernel⟩

/-- C10: the edit is not seen in the record of entity 3. -/
example : ∃ sn, sTouched.snap (some 3) = some sn ∧ sGot.snap (some 3) = some sn ∧ (sTouched.heap.attr 3).dirty = true := by
  have h1 : (sGot.snap (some 3)).isSome = true := by decide +kernel
  obtain ⟨sn, hs⟩ := Option.isSome_iff_exists.1 h1
  have h2 : sTouched.snap = sGot.snap := edited_snap sGot
  exact ⟨sn, by rw [h2]; exact hs, hs, by decide +kernel⟩

/-- C11: an update of entity 3 is asked for at a point user code comes to. -/
example : LoadsModels okEnv ∧ (entityChanges okEnv txOpts sTouched).map (fun cs => decide ((⟨some 3, some 7, .update⟩ : Job) ∈ jobs cs)) = some true := by
  refine ⟨?_, by decide +kernel⟩
  intro t h n par e he
  cases n with
  | none => simpa [okEnv, stdConv] using he.symm
  | some p => simp [okEnv, stdConv] at he

end Ddd
