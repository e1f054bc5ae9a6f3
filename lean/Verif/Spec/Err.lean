import Verif.Model.Err
/-!
# Vocabulary: what an error is in the sense of Go's `errors.Is` (C18, C61)
-/
namespace Ddd.Spec

/-- The error `s` itself, or an error made from one that carries `s` by `fmt.Errorf` with `%w` or by `errors.Join`. (An `ErrList` carries nothing: it has no `Unwrap`.) -/
inductive Carries (s : Sentinel) : Err → Prop
  | itself : Carries s (.sent s)
  | wrapped {e : Err} : Carries s e → Carries s (.wrap e)
  | joined {e : Err} {es : List Err} : e ∈ es → Carries s e → Carries s (.join es)

end Ddd.Spec
