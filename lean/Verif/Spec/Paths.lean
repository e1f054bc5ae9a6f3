import Verif.Spec.Graph
/-!
# Vocabulary: the places below an entity (C08, C60)
-/
namespace Ddd.Spec
variable {N : Type}

/-- `n` is what is found from `e` along `π`: a list of steps, each to the `i`-th entity in field `k` -/
inductive Path (kids : Kids N) : N → List (Nat × Nat) → N → Prop
  | here (e : N) : Path kids e [] e
  | down {e c n : N} {k i : Nat} {cs : List N} {π : List (Nat × Nat)} : (k, cs) ∈ kids e → cs[i]? = some c → Path kids c π n → Path kids e ((k, i) :: π) n

/-- `L` lists the places at which entities hang below the entities `R` (themselves included), each place once: where it starts, the way down, and what is there -/
structure Places (kids : Kids N) (R : N → Prop) (L : List (N × List (Nat × Nat) × N)) : Prop where
  once : L.Nodup
  all : ∀ r π n, (r, π, n) ∈ L ↔ R r ∧ Path kids r π n

end Ddd.Spec
