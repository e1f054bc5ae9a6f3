import Verif.Model.Nested
import Mathlib.Logic.Relation
/-! Vocabulary of C127: nested commands waiting for locks. -/
namespace Ddd.Nested

/-- process `i` waits for a key that process `j` holds (`j` may be `i` itself) -/
def WaitsFor (s : State) (i j : Nat) : Prop := ∃ f fs k ks, s.procs i = f :: fs ∧ f.releasing = false ∧ f.todo = k :: ks ∧ s.holder k = some j

/-- circular wait -/
def Deadlock (s : State) (i : Nat) : Prop := Relation.TransGen (WaitsFor s) i i

mutual
/-- Every key of the command, and of the commands run inside it at any depth, comes after all keys held when it is run: `held` and the keys of the commands around it. -/
def Rising (held : List Nat) : Waiting.Cmd → Prop
  | .mk keys inner => (∀ k ∈ keys, ∀ h ∈ held, h < k) ∧ RisingAll (held ++ keys) inner
/-- the same for commands run one after the other -/
def RisingAll (held : List Nat) : List Waiting.Cmd → Prop
  | [] => True
  | c :: cs => Rising held c ∧ RisingAll held cs
end

end Ddd.Nested
