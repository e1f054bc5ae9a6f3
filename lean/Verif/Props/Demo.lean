import Verif.Model.Stage
/-! Concrete environments and aggregates used by the non-vacuity examples and counterexamples. -/
namespace Ddd.Demo
open Ddd

/-- a heap given by a finite table; children have smaller numbers than their parents. -/
def heapOf (tab : List (Ptr × List (Key × List Ptr))) (attr : Ptr → Attr)
    (hwf : ∀ x ∈ tab, ∀ g ∈ x.2, ∀ c ∈ g.2, c < x.1) (hk : ∀ x ∈ tab, (x.2.map Prod.fst).Nodup) : Heap where
  kids p := ((tab.find? fun x => x.1 == p).map Prod.snd).getD []
  height p := p
  wf := by
    intro p k cs c h1 h2
    cases hf : tab.find? (fun x => x.1 == p) with
    | none => simp [hf] at h1
    | some x =>
      simp [hf] at h1
      have e := List.find?_some hf
      have m := List.mem_of_find?_eq_some hf
      simp at e
      subst e
      exact hwf x m _ h1 c h2
  keys := by
    intro p
    cases hf : tab.find? (fun x => x.1 == p) with
    | none => simp
    | some x => simpa [hf] using hk x (List.mem_of_find?_eq_some hf)
  attr := attr

/-- entity number `p` has type 1 and identifier `p`. -/
def stdAttr (p : Ptr) : Attr := { id := p, typ := 1, dirty := false, data := 0, events := [] }

/-- identity iteration order. -/
def idOrder : MapOrder Node := ⟨fun _ l => l, fun _ _ => List.Perm.refl _⟩

/-- identifier of a node (the container has none). -/
def nodeID (h : Heap) : Node → Nat
  | none => 0
  | some p => (h.attr p).id

/-- the usual converter: columns from the entity, foreign key from the parent; the container is not registered. -/
def stdConv (h : Heap) (n : Node) (parent : Option Node) : Res Model :=
  match n with
  | none => .err (.sent .notRegister)
  | some p => .ok { typ := (h.attr p).typ, id := (h.attr p).id,
                    parent := (parent.map (nodeID h)).getD 0, data := (h.attr p).data }

/-- everything succeeds; identifiers 1000, 1001, ... are generated; no entity hooks. -/
def okEnv : Env where
  ord _ _ := idOrder
  conv _ h n par _ := stdConv h n par
  query _ h _ := (h, .ok ())
  exec _ _ := .ok ()
  newID t := .ok (1000 + t.length)
  hasHook _ _ := false
  hook _ h _ _ := (h, .ok ())
  evModel _ e := .ok { typ := 99, id := e.id, parent := 0, data := e.body }
  lock _ _ := .ok ()
  unlock _ _ := .ok ()
  begin_ _ := .ok ()
  commit _ := .ok ()
  rollback _ := .ok ()
  dispatch _ _ := .ok ()
  dispatchBegin _ _ := (true, .ok ())
  busCommit _ := .ok ()
  busRollback _ := .ok ()
  postSave _ _ := .ok ()

def stdOpts : Opts :=
  { withTransaction := true, recursiveDelete := false, dryRun := false, eventPersist := false, bus := .plain, hooks := [] }

end Ddd.Demo
namespace Ddd
def Res.isOk {α : Type} : Res α → Bool | .ok _ => true | _ => false
def Res.isErr {α : Type} : Res α → Bool | .err _ => true | _ => false
def Res.isPanic {α : Type} : Res α → Bool | .panic => true | _ => false
end Ddd
