import Verif.Props.Load
import Verif.Props.RepositoryLoads
/-!
# C67: loading needs an ID
-/
set_option linter.unusedVariables false
set_option linter.unusedSimpArgs false
namespace Ddd

/-- **C67** In a command: `Get` and `BuildEntity` of a root without ID fail, ask the database nothing and change nothing. -/
theorem C67_command_needs_id (env : Env) (root : Ptr) (s : St) (h : (s.heap.attr root).id = 0) :
    (∃ e, buildEntity env root s = (.err e, s)) ∧ ∃ e, repoGet env root s = (.err e, s) := by
  refine ⟨⟨_, by unfold buildEntity; rw [if_pos h]⟩, ?_⟩
  unfold repoGet
  by_cases hs : s.hasSnapshot root = true
  · exact ⟨_, by rw [if_pos hs]⟩
  · refine ⟨errParentNoID, ?_⟩
    rw [if_neg hs]
    show M.bind (buildEntity env root) _ s = _
    unfold M.bind buildEntity
    rw [if_pos h]

/-- **C67** … and with an ID the row is asked for, exactly once, for this root. -/
theorem C67_command_asks (env : Env) (root : Ptr) (s : St) (h : (s.heap.attr root).id ≠ 0) :
    ∃ st, (buildEntity env root s).2.trace = s.trace ++ [.query root st] := by
  unfold buildEntity
  rw [if_neg h]
  exact ⟨_, rfl⟩

/-- both are met: any state, with the ID of the root cleared resp. set -/
example (env : Env) (root : Ptr) (s : St) : (∃ e, repoGet env root { s with heap := s.heap.setAttr root fun a => { a with id := 0 } } = (.err e, { s with heap := s.heap.setAttr root fun a => { a with id := 0 } })) ∧
    ∃ st, (buildEntity env root { s with heap := s.heap.setAttr root fun a => { a with id := 7 } }).2.trace = s.trace ++ [.query root st] :=
  ⟨(C67_command_needs_id env root { s with heap := s.heap.setAttr root fun a => { a with id := 0 } } (by simp [Heap.setAttr])).2,
    C67_command_asks env root { s with heap := s.heap.setAttr root fun a => { a with id := 7 } } (by simp [Heap.setAttr])⟩

/-- **C67** The same of `Stage.BuildEntity` with arguments: without an ID of the parent nothing is asked and nothing changes. -/
theorem C67_needs_id (env : Load.LEnv) (par : Nat) (args : List Load.Arg) (s : Load.LSt) (h : (s.obj par).id = 0) : ∃ e, Load.build env par args s = (.err e, s) :=
  ⟨_, by unfold Load.build; rw [if_pos h]⟩

/-- **C67** Loading an entity of a type that was never registered with the executor fails with `ErrEntityNotRegister`; nothing is asked and nothing changes. -/
theorem C67_unregistered (env : Load.LEnv) (par : Nat) (args : List Load.Arg) (s : Load.LSt) (h : (s.obj par).id ≠ 0) (hr : env.reg (s.obj par).typ = none) :
    Load.build env par args s = (.err (.sent .notRegister), s) := by
  simp [Load.build, h, Load.buildOne, Load.entity2Model, hr]

/-- met by the example of C67 with an executor that knows no type -/
example : (Load.Demo.start.obj 0).id ≠ 0 ∧ ({ Load.Demo.shopEnv with reg := fun _ => none } : Load.LEnv).reg (Load.Demo.start.obj 0).typ = none := ⟨by decide, rfl⟩

end Ddd
