/-!
# Specification vocabulary: aggregates

Independent of the model of the code: only lists of children per (parent, field).
-/

namespace Ddd.Spec

variable {N : Type}

/-- Children per parent: for every parent the list of (field, children). -/
abbrev Kids (N : Type) := N → List (Nat × List N)

/-- `p` currently holds `c` in field `k`. -/
def Has (kids : Kids N) (p : N) (k : Nat) (c : N) : Prop := ∃ cs, (k, cs) ∈ kids p ∧ c ∈ cs

/-- `c` is a direct child of `p`. -/
def Child (kids : Kids N) (p c : N) : Prop := ∃ k, Has kids p k c

/-- `x` is in the aggregate below (or equal to) `root`. -/
inductive Reach (kids : Kids N) (root : N) : N → Prop
  | root : Reach kids root root
  | step {p c : N} : Reach kids root p → Child kids p c → Reach kids root c

/-- the entity `p` has a field `k` (possibly empty) now. -/
def Field (kids : Kids N) (p : N) (k : Nat) : Prop := ∃ cs, (k, cs) ∈ kids p

/-- What was recorded when the aggregate was last loaded or saved: `p` held `c` in field `k`. -/
def Had (old : N → Option (List (Nat × List N))) (p : N) (k : Nat) (c : N) : Prop :=
  ∃ fields cs, old p = some fields ∧ (k, cs) ∈ fields ∧ c ∈ cs

/-- every entity below `root` sits in one place only. -/
def OnePlace (kids : Kids N) (root : N) : Prop :=
  ∀ p k c p' k', Reach kids root p → Reach kids root p' → Has kids p k c → Has kids p' k' c →
    p = p' ∧ k = k'

end Ddd.Spec

namespace Ddd.Spec
variable {N : Type}

/-- `c` is now in field `k` of `p` and was not there before. -/
def Added (kids : Kids N) (old : N → Option (List (Nat × List N))) (root p : N) (k : Nat) (c : N) : Prop :=
  Reach kids root p ∧ Has kids p k c ∧ ¬ Had old p k c

/-- `c` is still in field `k` of `p` and is marked dirty. -/
def Touched (kids : Kids N) (old : N → Option (List (Nat × List N))) (dirty : N → Bool) (root p : N) (k : Nat) (c : N) :
    Prop :=
  Reach kids root p ∧ Has kids p k c ∧ Had old p k c ∧ dirty c = true

/-- `c` was in field `k` of `p`; `p` is still in the aggregate, still has the field, and does not hold `c` there any more. -/
def Gone (kids : Kids N) (old : N → Option (List (Nat × List N))) (root p : N) (k : Nat) (c : N) : Prop :=
  Reach kids root p ∧ Field kids p k ∧ Had old p k c ∧ ¬ Has kids p k c

/-- the three ways an entity can be changed. -/
inductive Way where
  | added | touched | gone
  deriving DecidableEq, Repr

/-- `c` is changed in this way at this place. -/
def ChangedAt (kids : Kids N) (old : N → Option (List (Nat × List N))) (dirty : N → Bool) (root : N) :
    Way → N → Nat → N → Prop
  | .added, p, k, c => Added kids old root p k c
  | .touched, p, k, c => Touched kids old dirty root p k c
  | .gone, p, k, c => Gone kids old root p k c

/-- `c` is changed at two places, other than being removed from one and added to the other. -/
def Conflict (kids : Kids N) (old : N → Option (List (Nat × List N))) (dirty : N → Bool) (root c : N) : Prop :=
  ∃ w p k w' p' k', ChangedAt kids old dirty root w p k c ∧ ChangedAt kids old dirty root w' p' k' c ∧
    (w, p, k) ≠ (w', p', k') ∧ ¬ (w = .added ∧ w' = .gone) ∧ ¬ (w = .gone ∧ w' = .added)

end Ddd.Spec
