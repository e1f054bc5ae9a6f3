import Verif.Model.Hooks
/-! # Specification vocabulary: PostSave hooks of several commands -/
namespace Ddd.Hooks

/-- a state of a process in which an engine was made with hooks `hs` and any commands run on it, in any interleaving; command `i` adds `own i`. -/
def Reachable (grow : Nat → Nat) (hs : List Nat) (own : Nat → List Nat) (s : State) : Prop :=
  Steps grow (engineSlice grow hs).2 own { mem := (engineSlice grow hs).1, pc := fun _ => .idle } s

/-- command `i` has called `called` so far. -/
def Called (s : State) (i : Nat) (called : List Nat) : Prop := ∃ sl, s.pc i = .hooks sl called

/-- command `i` has called `called` and is through. -/
def Finished (s : State) (i : Nat) (called : List Nat) : Prop := ∃ sl, s.pc i = .hooks sl called ∧ called.length = sl.len

end Ddd.Hooks
