import Verif.Model.Stage
/-!
# Loading: `Stage.BuildEntity` with its children arguments

Models `/repo/engine.go:639-752` and the converter registry and query of `/repo/executor/mysql/executor.go`.
`Model/Stage.lean` treats `BuildEntity` as one external step with any effect on the objects; here is what that step does.

Simplifications: the reflection of Go is replaced by a classification of the children arguments (`Arg`); nil interfaces and nil
pointers as arguments are left out; the fields of the parent that hold the children are variables beside the entity (`slices`, `ptrs`).
-/
namespace Ddd.Load
open Ddd

/-- an entity object: its Go type, ID and fields (`IEntity` (`domain.go:25-34`)) -/
abbrev Obj := Attr

/-- `reflect.New(T)` (`engine.go:663`, `723`, `744`): a new object of Go type `t`, all fields zero -/
def zero (t : Nat) : Obj := { id := 0, typ := t, dirty := false, data := 0, events := [] }

/-- `Converter` (`executor/mysql/executor.go:40-43`); only the query operation matters here. User code, so it may fail or panic;
a `model2Entity` that fails after it has changed part of the entity is taken to leave it alone. -/
structure Converter where
  e2m : Obj → Option Obj → Res Model
  m2e : Model → Obj → Res Obj
  /-- the Go type of an object never changes -/
  keeps : ∀ m o o', m2e m o = .ok o' → o'.typ = o.typ

/-- `entity2ModelRegistry` (`executor/mysql/executor.go:45`): by Go type -/
abbrev Registry := Nat → Option Converter

/-- `RegisterEntity2Model`, `RegisterConverter` (`executor/mysql/executor.go:55-74`): the last registration of a type wins -/
def Registry.register (g : Registry) (t : Nat) (c : Converter) : Registry := fun t' => if t' = t then some c else g t'

/-- a variable of the user that holds children: a field of the parent, usually (The arguments `children` of `BuildEntity` (`engine.go:641`)) -/
abbrev Var := Nat

/-- the element type of a slice argument (`engine.go:711-721`) -/
inductive Elem where
  /-- `[]*T`, `*T` an entity -/
  | pointer
  /-- `[]T`, `T` an entity (methods on the value) -/
  | value
  /-- `[]I`, `I` an interface that includes `IEntity` -/
  | iface
  /-- anything that does not implement `IEntity` -/
  | other
  deriving DecidableEq, Repr

/-- a children argument of `BuildEntity` as its reflection sees it (`engine.go:649-680`) -/
inductive Arg where
  /-- not a pointer -/
  | notPtr
  /-- pointer to the slice `v`, elements of type `t` -/
  | slice (v : Var) (e : Elem) (t : Nat)
  /-- pointer to the variable `v` of type `*T`, `*T` an entity of type `t` -/
  | ptr (v : Var) (t : Nat)
  /-- an entity -/
  | entity (p : Nat)
  /-- any other pointer -/
  | other
  deriving DecidableEq, Repr

/-- the objects and variables of the user; addresses from `next` on are free; the queries made (The user's memory as seen by `BuildEntity` (`engine.go:641-752`)) -/
structure LSt where
  obj : Nat → Obj
  next : Nat
  slices : Var → List Nat
  ptrs : Var → Option Nat
  log : List Model

/-- what is outside: the registry and the database (it may answer each query differently) (`executor/mysql/executor.go:45,196-214,124-138`) -/
structure LEnv where
  reg : Registry
  find : List Model → Model → Res (List Model)

/-- `fmt.Errorf("parent must has ID")` and the other errors of `BuildEntity` (`engine.go:643-679`, `712-718`) -/
def errNoID : Err := .msg 60
/-- `engine.go:654,713`. -/
def errNotPtr : Err := .msg 61
/-- `engine.go:679`. -/
def errArgType : Err := .msg 62
/-- `engine.go:717`. -/
def errElemType : Err := .msg 63

variable (env : LEnv)

/-- Writing to an object, as `Model2Entity` does (`engine.go:697-708,745-749`). -/
def setObj (s : LSt) (p : Nat) (o : Obj) : LSt := { s with obj := fun q => if q = p then o else s.obj q }

/-- `Executor.Entity2Model` (`executor/mysql/executor.go:196-202`) -/
def entity2Model (o : Obj) (parent : Option Obj) : Res Model :=
  match env.reg o.typ with
  | none => .err (.sent .notRegister)
  | some c => c.e2m o parent

/-- `Executor.Model2Entity` (`executor/mysql/executor.go:204-214`) -/
def model2Entity (m : Model) (o : Obj) : Res Obj :=
  match env.reg o.typ with
  | none => .err (.sent .notRegister)
  | some c => c.m2e m o

/-- `Exec` with `OpQuery` (`executor/mysql/executor.go:134-137`, `220-233`): `db.Where(query).Find(&result)` -/
def query (q : Model) (s : LSt) : Res (List Model) × LSt := (env.find s.log q, { s with log := s.log ++ [q] })

/-- `Stage.buildEntity` (`engine.go:686-707`) -/
def buildOne (p : Nat) (parent : Option Nat) (s : LSt) : Res Unit × LSt :=
  match entity2Model env (s.obj p) (parent.map s.obj) with
  | .panic => (.panic, s)
  | .err e => (.err e, s)
  | .ok q =>
    match query env q s with
    | (.panic, s) => (.panic, s)
    | (.err e, s) => (.err e, s)
    | (.ok [], s) => (.err (.sent .notFound), s)
    | (.ok (m :: _), s) =>
      match model2Entity env m (s.obj p) with
      | .panic => (.panic, s)
      | .err e => (.err e, s)
      | .ok o => (.ok (), setObj s p o)

/-- the loop of `buildEntitySliceByParent` (`engine.go:743-749`); `reflect.Append` panics on a slice of values. The slice variable is set after the loop. -/
def appendRows (e : Elem) (t : Nat) : List Model → List Nat → LSt → Res (List Nat) × LSt
  | [], acc, s => (.ok acc, s)
  | m :: ms, acc, s =>
    match model2Entity env m (zero t) with
    | .panic => (.panic, s)
    | .err e => (.err e, s)
    | .ok o =>
      if e = .value then (.panic, s) else
      let s1 : LSt := { s with obj := fun q => if q = s.next then o else s.obj q, next := s.next + 1 }
      appendRows e t ms (acc ++ [s.next]) s1

/-- `buildEntitySliceByParent` (`engine.go:710-752`) -/
def buildSlice (parent : Nat) (v : Var) (e : Elem) (t : Nat) (s : LSt) : Res Unit × LSt :=
  match e with
  | .other => (.err errElemType, s)
  | .iface => (.panic, s)
  | _ =>
    match entity2Model env (zero t) (some (s.obj parent)) with
    | .panic => (.panic, s)
    | .err e => (.err e, s)
    | .ok q =>
      match query env q s with
      | (.panic, s) => (.panic, s)
      | (.err e, s) => (.err e, s)
      | (.ok [], s) => (.ok (), s)
      | (.ok ms, s) =>
        match appendRows env e t ms (s.slices v) s with
        | (.panic, s) => (.panic, s)
        | (.err e, s) => (.err e, s)
        | (.ok ps, s) => (.ok (), { s with slices := fun w => if w = v then ps else s.slices w })

/-- the pointer case (`engine.go:659-673`): a nil pointer is set to a new object first; not found clears the pointer -/
def buildPtr (parent : Nat) (v : Var) (t : Nat) (s : LSt) : Res Unit × LSt :=
  let (p, s) : Nat × LSt := match s.ptrs v with
    | some p => (p, s)
    | none => (s.next, { s with obj := fun q => if q = s.next then zero t else s.obj q, next := s.next + 1,
                                ptrs := fun w => if w = v then some s.next else s.ptrs w })
  match buildOne env p (some parent) s with
  | (.err e, s) => if e.is .notFound then (.ok (), { s with ptrs := fun w => if w = v then none else s.ptrs w }) else (.err e, s)
  | (r, s) => (r, s)

/-- one children argument (`engine.go:649-680`) -/
def buildArg (parent : Nat) (a : Arg) (s : LSt) : Res Unit × LSt :=
  match a with
  | .notPtr => (.err errNotPtr, s)
  | .slice v e t => buildSlice env parent v e t s
  | .ptr v t => buildPtr env parent v t s
  | .entity p =>
    match buildOne env p (some parent) s with
    | (.err e, s) => if e.is .notFound then (.ok (), s) else (.err e, s)
    | (r, s) => (r, s)
  | .other => (.err errArgType, s)

/-- the arguments in order (`engine.go:649-681`) -/
def buildArgs (parent : Nat) : List Arg → LSt → Res Unit × LSt
  | [], s => (.ok (), s)
  | a :: as, s =>
    match buildArg env parent a s with
    | (.ok _, s) => buildArgs parent as s
    | (r, s) => (r, s)

/-- `Stage.BuildEntity` (`engine.go:641-683`) -/
def build (parent : Nat) (args : List Arg) (s : LSt) : Res Unit × LSt :=
  if (s.obj parent).id = 0 then (.err errNoID, s)
  else
    match buildOne env parent none s with
    | (.ok _, s) => buildArgs env parent args s
    | (r, s) => (r, s)

end Ddd.Load
