import Verif.Props.Again
/-!
# Concrete cases of C109
-/
namespace Ddd.Again
open Ddd Spec Ddd.Demo

/-- a database whose first `Commit` fails -/
def flaky : Env := { okEnv with commit := fun t => if t.any (fun x => x == .commit .err) then .ok () else .err (.msg 5) }
/-- a lock that is not obtained at first -/
def busy : Env := { okEnv with lock := fun t _ => if t.any (fun x => x == .lock 4 .err) then .ok () else .err (.msg 6) }

/-- `Main` adds root 7 -/
def adds : Setup := { opts := stdOpts, keys := [4], main := .add [7] (.ret none) }
/-- the same without `Main` -/
def nothing : Setup := { opts := stdOpts, keys := [4], main := .ret none }

/-- whether each `Save` succeeded, and the calls -/
def story (x : List (Option Result) × Stage) : List (Option Bool) × List Call := (x.1.map (Option.map fun r => r.error.isNone && !r.brk), x.2.st.trace.filterMap Ddd.Demo.brief)

/-- one `Save`, the calls after lock and begin, ended by `x` -/
def round (x : Call) : List Call := [.lock 4 .ok, .begin .ok, .mainStart, .mainRet .ok, .exec ⟨.insert, [], []⟩ .ok, .exec ⟨.insert, [], []⟩ .ok, x, .unlock 4 .ok]

/-- **C109** (saving again does not work in general) The first `Commit` fails; two more `Save`s, whose calls all succeed, write everything again, are rolled back and fail. -/
theorem C109_not_again : story (saves flaky [adds, nothing, nothing] (new twoTypes)) =
    ([some false, some false, some false], round (.commit .err) ++ round (.rollback .ok) ++ round (.rollback .ok)) := by decide +kernel

/-- the hypotheses of `C109_failed_commit` are met there (the trace of a new stage is empty) -/
example : .commit .err ∈ (save flaky stdOpts [4] (.add [7] (.ret none)) (new twoTypes)).2.st.trace ∧ (new twoTypes).st.trace = [] := by decide +kernel

/-- a lock that is not obtained at first: the second `Save` works (`C109_not_begun_partial`) -/
example : story (saves busy [adds, adds] (new twoTypes)) = ([some false, some true], .lock 4 .err :: round (.commit .ok)) := by decide +kernel

/-- saved twice: everything is inserted twice (`C109_repeats`) -/
example : story (saves okEnv [adds, nothing] (new twoTypes)) = ([some true, some true], round (.commit .ok) ++ round (.commit .ok)) := by decide +kernel
example : stdOpts.recursiveDelete = false ∧ ∀ p k, okEnv.hasHook p k = false := ⟨rfl, fun _ _ => rfl⟩
end Ddd.Again
