import Verif.Spec.Program
import Verif.Spec.Graph
/-!
# Specification vocabulary: what user code does between a repository call and the save
-/
namespace Ddd.Spec
open Ddd

/-- the next call neither loads a root (`Get`, `CustomGet`, `Remove` of a root the repository does not hold, the end of `Build`) nor saves -/
def Calm : Prog → St → Prop
  | .get .., _ => False
  | .customGet .., _ => False
  | .save .., _ => False
  | .commit .., _ => False
  | .enter .., _ => False
  | .remove rs _, s => ∀ r ∈ rs, r ∈ s.roots
  | _, _ => True

/-- user code goes on from `p`, `s` to `p'`, `s'` without loading and without saving: it edits its objects, adds roots, removes roots the repository holds -/
inductive NoLoad (env : Env) (opts : Opts) : Prog → St → Prog → St → Prop
  | here (p : Prog) (s : St) : NoLoad env opts p s p s
  | step {p p1 p2 : Prog} {s s1 s2 : St} : Calm p s → Next env opts p s p1 s1 → NoLoad env opts p1 s1 p2 s2 → NoLoad env opts p s p2 s2

/-- the points a program comes to that never calls `RootContainer.Add` on an entity that is already tracked (programs using only the `Repository` never do) -/
inductive Proper (env : Env) (opts : Opts) : Prog → St → Prog → St → Prop
  | here (p : Prog) (s : St) : Proper env opts p s p s
  | step {p p1 p2 : Prog} {s s1 s2 : St} : (∀ r k, p = .cAdd r k → s.snap (some r) = none) → Next env opts p s p1 s1 → Proper env opts p1 s1 p2 s2 → Proper env opts p s p2 s2

/-- user code goes on from `p`, `s` to `p'`, `s'` in steps that all satisfy `ok` (given the code and the state after the step) -/
inductive During (env : Env) (opts : Opts) (ok : Prog → St → Prop) : Prog → St → Prog → St → Prop
  | here (p : Prog) (s : St) : During env opts ok p s p s
  | step {p p1 p2 : Prog} {s s1 s2 : St} : Next env opts p s p1 s1 → ok p s1 → During env opts ok p1 s1 p2 s2 → During env opts ok p s p2 s2

/-- user code calls `Repository.Get` or `CustomGet` successfully -/
inductive Loads (env : Env) (opts : Opts) : Prog → St → Prog → St → Prop
  | get {r : Ptr} {k : Option Err → Prog} {s s' : St} : repoGet env r s = (.ok (), s') → Loads env opts (.get r k) s (k none) s'
  | customGet {g : Heap → Heap} {rs : List Ptr} {k : Option Err → Prog} {s s' : St} : repoCustomGet env g rs s = (.ok (), s') → Loads env opts (.customGet g rs k) s (k none) s'

end Ddd.Spec
