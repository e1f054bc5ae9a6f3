import Verif.Model.Stage
/-!
# Specification vocabulary: the points a user program passes through
-/
namespace Ddd.Spec
open Ddd

variable (env : Env) (opts : Opts)

/-- One step of user code: program `p` in state `s` makes its next API call (or edits its objects) and goes on as `p'` in state `s'`. There is no
step if the call panics (or, for the end of `Build`, fails: the command ends there). -/
inductive Next : Prog → St → Prog → St → Prop
  | mutate (f : Heap → Heap) (k : Prog) (s : St) : Next (.mutate f k) s k { s with heap := f s.heap }
  | look (k : Heap → Prog) (s : St) : Next (.look k) s (k s.heap) s
  | output (v : Nat) (k : Prog) (s : St) : Next (.output v k) s k { s with output := v }
  | get {r : Ptr} {k : Option Err → Prog} {s s' : St} {e : Option Err} : M.attempt (repoGet env r) s = (.ok e, s') → Next (.get r k) s (k e) s'
  | customGet {g : Heap → Heap} {rs : List Ptr} {k : Option Err → Prog} {s s' : St} {e : Option Err} :
      M.attempt (repoCustomGet env g rs) s = (.ok e, s') → Next (.customGet g rs k) s (k e) s'
  | add {rs : List Ptr} {k : Prog} {s s' : St} : repoAdd rs s = (.ok (), s') → Next (.add rs k) s k s'
  | remove {rs : List Ptr} {k : Prog} {s s' : St} : repoRemove env rs s = (.ok (), s') → Next (.remove rs k) s k s'
  | save {k : Option Err → Prog} {s s' : St} {e : Option Err} : M.attempt (repoSave env opts) s = (.ok e, s') → Next (.save k) s (k e) s'
  | commit {k : Option Err → Prog} {s s' : St} {e : Option Err} : M.attempt (commitSave env opts) s = (.ok e, s') → Next (.commit k) s (k e) s'
  | build {r : Ptr} {k : Option Err → Prog} {s s' : St} {e : Option Err} : M.attempt (buildEntity env r) s = (.ok e, s') → Next (.build r k) s (k e) s'
  | enter {rs : List Ptr} {k : Prog} {s s' : St} : enterRoots env rs s = (.ok (), s') → Next (.enter rs k) s k s'
  | cAdd {r : Ptr} {k : Prog} {s s' : St} {e : Option Err} : M.attempt (containerAdd r) s = (.ok e, s') → Next (.cAdd r k) s k s'
  | cRemove {r : Ptr} {k : Prog} {s s' : St} {e : Option Err} : M.attempt (containerRemove r) s = (.ok e, s') → Next (.cRemove r k) s k s'

/-- user code started as `p` in `s` comes to the point `p'`, `s'`. -/
inductive Visits : Prog → St → Prog → St → Prop
  | here (p : Prog) (s : St) : Visits p s p s
  | step {p p1 p2 : Prog} {s s1 s2 : St} : Next env opts p s p1 s1 → Visits p1 s1 p2 s2 → Visits p s p2 s2

/-- the state in which the user's code of a command with lock keys `keys` starts. -/
def atStart (opts : Opts) (keys : List Nat) (s : St) : St :=
  { s with trace := s.trace ++ ((((keys.insertionSort (· ≤ ·)).map fun k => Call.lock k .ok) ++
      if opts.withTransaction then [.begin .ok] else []) ++ [.mainStart]) }

/-- `Repository.Add` of `rs` is a misuse: some root is already tracked, or given twice. -/
def AddMisuse (rs : List Ptr) (s : St) : Prop :=
  (∃ r ∈ rs, (s.snap (some r)).isSome ∨ r ∈ s.roots) ∨ ¬ rs.Nodup

/-- `Repository.Remove` of `rs` is a misuse: some root is tracked without being a root (a child entity), or is given twice. -/
def RemoveMisuse (rs : List Ptr) (s : St) : Prop :=
  (∃ r ∈ rs, (s.snap (some r)).isSome ∧ r ∉ s.roots) ∨ ¬ rs.Nodup

end Ddd.Spec
