import Verif.Spec.Program
import Verif.Spec.Trace
/-!
# Specification vocabulary: what a `Result` tells
-/
namespace Ddd.Spec
open Ddd

/-- the write actions the executor performed without error, in order. -/
def performed (t : Trace) : List Action :=
  t.filterMap fun | .exec a .ok => some a | _ => none

/-- no write action failed. -/
def NoWriteFailed (t : Trace) : Prop := ∀ a st, Call.exec a st ∈ t → st = .ok

/-- the values passed to `Output` on the way from one program point to another. -/
inductive Says (env : Env) (opts : Opts) : Prog → St → List Nat → Prog → St → Prop
  | here (p : Prog) (s : St) : Says env opts p s [] p s
  | output {v : Nat} {k p2 : Prog} {s s1 s2 : St} {vs : List Nat} : Next env opts (.output v k) s k s1 → Says env opts k s1 vs p2 s2 → Says env opts (.output v k) s (v :: vs) p2 s2
  | other {p p1 p2 : Prog} {s s1 s2 : St} {vs : List Nat} : (∀ v k, p ≠ .output v k) → Next env opts p s p1 s1 → Says env opts p1 s1 vs p2 s2 → Says env opts p s vs p2 s2

end Ddd.Spec
