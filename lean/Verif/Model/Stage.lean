import Verif.Model.Err
import Verif.Model.Snapshot
/-!
# One run of a command: `Stage`

Models `/repo/engine.go`. External calls (executor, converter, locker, event bus, ID generator, entity hooks,
PostSave hooks, `EventPersist`) are answered by an oracle `Env` that sees the whole history of calls; user code is an
arbitrary interaction tree `Prog`.
-/

namespace Ddd

/-- A pointer to an entity object. (`IEntity` values (`domain.go:25-34`).) -/
abbrev Ptr := Nat

/-- An `IEntity` inside a stage: `none` is the stage's `EntityContainer` (`engine.go:60-65`), `some p` a user entity. -/
abbrev Node := Option Ptr

/-- `DomainEvent` (`event.go:222-229`): `id`, `createdAt`, whether `SendType == SendTypeTransaction`, and the rest. -/
structure Event where
  id : Nat
  createdAt : Nat
  tx : Bool
  body : Nat
  deriving DecidableEq, Repr

/-- State of an entity besides its children (`BaseEntity`, `domain.go:69-73`, plus user fields `data`). `id = 0` stands for
the empty string. `typ` is the Go type. -/
structure Attr where
  id : Nat
  typ : Nat
  dirty : Bool
  data : Nat
  events : List Event
  deriving DecidableEq, Repr

/-- The user's objects. `kids`, `height`, `wf`, `keys` as in `Graph`. (`domain.go:25-34,69-113`.) -/
structure Heap where
  kids : Ptr → List (Key × List Ptr)
  height : Ptr → Nat
  wf : ∀ {p : Ptr} {k : Key} {cs : List Ptr} {c : Ptr}, (k, cs) ∈ kids p → c ∈ cs → height c < height p
  keys : ∀ p, ((kids p).map Prod.fst).Nodup
  attr : Ptr → Attr

/-- change the attributes of one entity (`SetID`, `UnDirty`: `domain.go:82-96`). -/
def Heap.setAttr (h : Heap) (p : Ptr) (f : Attr → Attr) : Heap :=
  { h with attr := fun q => if q = p then f (h.attr q) else h.attr q }

theorem le_sum_of_mem' {l : List Nat} {x : Nat} (h : x ∈ l) : x ≤ l.sum := by
  induction l with
  | nil => simp at h
  | cons a l ih =>
    rw [List.sum_cons]
    rcases List.mem_cons.1 h with rfl | h
    · omega
    · have := ih h; omega

/-- the graph walked by the stage: the container with its single field "meta" (key 0) holding the roots
(`engine.go:67-69`), and the user entities below. -/
def stageGraph (h : Heap) (roots : List Ptr) : Graph Node where
  kids
    | none => [(0, roots.map some)]
    | some p => (h.kids p).map fun g => (g.1, g.2.map some)
  height
    | none => 1 + (roots.map h.height).sum
    | some p => h.height p
  wf := by
    intro p k cs c h1 h2
    cases p with
    | none =>
      simp only [List.mem_singleton, Prod.mk.injEq] at h1
      obtain ⟨_, rfl⟩ := h1
      obtain ⟨r, hr, rfl⟩ := List.mem_map.1 h2
      have : h.height r ≤ (roots.map h.height).sum := le_sum_of_mem' (List.mem_map.2 ⟨r, hr, rfl⟩)
      simp only; omega
    | some p =>
      obtain ⟨g, hg, he⟩ := List.mem_map.1 h1
      simp only [Prod.mk.injEq] at he
      obtain ⟨_, rfl⟩ := he
      obtain ⟨r, hr, rfl⟩ := List.mem_map.1 h2
      exact h.wf (k := g.1) (cs := g.2) hg hr
  keys := by
    intro p
    cases p with
    | none => simp
    | some p => simpa [List.map_map, Function.comp_def] using h.keys p

/-- `IsDirty` of a node; the container is never a child, so its flag is irrelevant. (`domain.go:98-100`.) -/
def Heap.dirtyNode (h : Heap) : Node → Bool
  | none => false
  | some p => (h.attr p).dirty

/-- `GetEvents` of a node; the container has no events. (`domain.go:111-113`.) -/
def Heap.eventsOf (h : Heap) : Node → List Event
  | none => []
  | some p => (h.attr p).events

/-- `OpType` (`executor.go:23-31`). -/
inductive Op where
  | insert | update | delete | query
  deriving DecidableEq, Repr

/-- `changeType2OP` (`engine.go:627-637`). -/
def ChangeType.op : ChangeType → Op
  | .new => .insert | .dirty => .update | .delete => .delete | .clear => .delete

/-- `IModel` (`executor.go:35-37`): Go type, ID, and the columns (`parent` = foreign key, `data` = others). -/
structure Model where
  typ : Nat
  id : Nat
  parent : Nat
  data : Nat
  deriving DecidableEq, Repr

/-- `Action` of a write (`executor.go:39-46`). -/
structure Action where
  op : Op
  models : List Model
  prev : List (Option Model)
  deriving DecidableEq, Repr

/-- outcome class of an external call. (Auxiliary of the model, outcomes of the calls `engine.go` makes.) -/
inductive Stat where
  | ok | err | panic
  deriving DecidableEq, Repr

/-- outcome of a Go call returning `(α, error)`, or a panic. (Auxiliary of the model, outcomes of functions of `engine.go`.) -/
inductive Res (α : Type) where
  | ok (a : α) | err (e : Err) | panic

/-- Auxiliary: what the trace records of an outcome of a call in `engine.go`. -/
def Res.stat {α : Type} : Res α → Stat
  | .ok _ => .ok | .err _ => .err | .panic => .panic

/-- the entity hooks (`domain.go:36-58`), by change type and before/after. -/
structure HookKind where
  ctype : ChangeType
  before : Bool
  deriving DecidableEq, Repr

/-- A call that leaves the framework, with its outcome: the observable behaviour of a command.
`mainStart`/`mainRet` mark the call of the user's `Main` and its return. (The calls are made in `engine.go:641-752,907-1310`.) -/
inductive Call where
  | lock (key : Nat) (st : Stat)
  | unlock (key : Nat) (st : Stat)
  | begin (st : Stat)
  | commit (st : Stat)
  | rollback (st : Stat)
  | mainStart
  | mainRet (st : Stat)
  | query (root : Ptr) (st : Stat)
  | conv (n : Node) (parent : Option Node) (op : Op) (st : Stat) (unregistered : Bool)
  | newID (st : Stat)
  | hook (n : Node) (kind : HookKind) (st : Stat)
  | exec (a : Action) (st : Stat)
  | evModel (e : Event) (st : Stat)
  | dispatch (es : List Event) (st : Stat)
  | dispatchBegin (es : List Event) (st : Stat)
  | busCommit (st : Stat)
  | busRollback (st : Stat)
  | postSave (h : Nat) (st : Stat)
  deriving DecidableEq, Repr

/-- Auxiliary: the calls made by `engine.go`, in order. -/
abbrev Trace := List Call

/-- The environment of a command. Every answer may depend on the whole call history.
* `ord`: Go map iteration order, per history and place in the code;
* `conv`: `Entity2Model` (`executor.go:65`);
* `query`: `BuildEntity` (`engine.go:641-752`) as one step: any result, any change of the heap;
* `hasHook`/`hook`: which hooks an entity (by its fixed Go type) implements and what they do (they may change the heap). -/
structure Env where
  ord : Trace → Nat → MapOrder Node
  conv : Trace → Heap → Node → Option Node → Op → Res Model
  query : Trace → Heap → Ptr → Heap × Res Unit
  exec : Trace → Action → Res Unit
  newID : Trace → Res Nat
  hasHook : Ptr → HookKind → Bool
  hook : Trace → Heap → Node → HookKind → Heap × Res Unit
  evModel : Trace → Event → Res Model
  lock : Trace → Nat → Res Unit
  unlock : Trace → Nat → Res Unit
  begin_ : Trace → Res Unit
  commit : Trace → Res Unit
  rollback : Trace → Res Unit
  dispatch : Trace → List Event → Res Unit
  /-- `DispatchBegin` returns a context besides the error; the flag says whether it is non-nil. -/
  dispatchBegin : Trace → List Event → Bool × Res Unit
  busCommit : Trace → Res Unit
  busRollback : Trace → Res Unit
  postSave : Trace → Nat → Res Unit

/-- the event bus: nil, without, or with transaction support (`event.go:260-288`). -/
inductive Bus where
  | nil | plain | tx
  deriving DecidableEq, Repr

/-- `Options` (`engine.go:291-303`), the part that matters; `hooks` are the PostSave hooks. -/
structure Opts where
  withTransaction : Bool
  recursiveDelete : Bool
  dryRun : Bool
  eventPersist : Bool
  bus : Bus
  hooks : List Nat

/-- `entitySnapshot` (`snapshot.go:33-36`); `keys`: a Go map has each key once. -/
structure Snap where
  po : Option Model
  kids : List (Key × List Node)
  keys : (kids.map Prod.fst).Nodup

/-- The mutable state of a `Stage` (`engine.go:587-603`), of its `Repository` (`errs`), the user's heap and the
history of external calls. -/
structure St where
  heap : Heap
  roots : List Ptr
  deleted : List Node
  snap : Node → Option Snap
  errs : List Err
  actions : List Action
  output : Nat
  eventCtx : Bool
  trace : Trace

/-- The stage's entities as `walk` sees them (`snapshot.go:192-207`). -/
def St.graph (s : St) : Graph Node := stageGraph s.heap s.roots

/-- Auxiliary: records a call of `engine.go`. -/
def St.log (s : St) (c : Call) : St := { s with trace := s.trace ++ [c] }

/-- Go code: reads and writes the state, returns a value, an error, or panics. (Auxiliary of the model, the functions of `engine.go`.) -/
def M (α : Type) := St → Res α × St

namespace M
/-- Auxiliary: `return a, nil` in functions of `engine.go`. -/
def pure {α : Type} (a : α) : M α := fun s => (.ok a, s)
/-- Auxiliary: sequencing with `if err != nil { return err }` as in `engine.go`; a panic unwinds. -/
def bind {α β : Type} (m : M α) (f : α → M β) : M β := fun s =>
  match m s with
  | (.ok a, s') => f a s'
  | (.err e, s') => (.err e, s')
  | (.panic, s') => (.panic, s')
/-- Auxiliary (decidability or do-notation), no counterpart in `engine.go`. -/
instance : Monad M where
  pure := M.pure
  bind := M.bind
/-- Auxiliary: `return err` in functions of `engine.go`. -/
def fail {α : Type} (e : Err) : M α := fun s => (.err e, s)
/-- Auxiliary: a panic in code called by `engine.go`. -/
def crash {α : Type} : M α := fun s => (.panic, s)
/-- Auxiliary: reading the state of a `Stage` (`engine.go:587-603`). -/
def get : M St := fun s => (.ok s, s)
/-- Auxiliary: writing the state of a `Stage` (`engine.go:587-603`). -/
def modify (f : St → St) : M Unit := fun s => (.ok (), f s)
/-- run and hand the error to the caller as a value. (Auxiliary of the model, calls in `engine.go` whose error is inspected.) -/
def attempt (m : M Unit) : M (Option Err) := fun s =>
  match m s with
  | (.ok _, s') => (.ok none, s')
  | (.err e, s') => (.ok (some e), s')
  | (.panic, s') => (.panic, s')
/-- `for _, x := range xs { if err := f(x); err != nil { return err } }` (Auxiliary of the model, loops of `engine.go`) -/
def forEach {α : Type} : List α → (α → M Unit) → M Unit
  | [], _ => pure ()
  | x :: xs, f => bind (f x) fun _ => forEach xs f
/-- an external call, logged with its outcome. (Auxiliary of the model, calls made by `engine.go`.) -/
def ext {α : Type} (ans : St → Res α) (mk : Stat → Call) : M α := fun s =>
  (ans s, s.log (mk (ans s).stat))
/-- an external call that may change the heap. (Auxiliary of the model, calls made by `engine.go` to user code (hooks, `engine.go:1106-1145`).) -/
def extH (ans : St → Heap × Res Unit) (mk : Stat → Call) : M Unit := fun s =>
  ((ans s).2, { s with heap := (ans s).1 }.log (mk (ans s).2.stat))
end M

section
variable (env : Env) (opts : Opts)

/-- text codes of errors made with `fmt.Errorf` (only their identity matters). (`engine.go:203,222`.) -/
def errHasAdded : Err := .msg 1
/-- `engine.go:236`. -/
def errMustBeNew : Err := .msg 2
/-- `snapshot.go:298`. -/
def errEntityRepeated : Err := .msg 3
/-- `engine.go:785`. -/
def errBuildNoID : Err := .msg 4
/-- `engine.go:643`. -/
def errParentNoID : Err := .msg 5
/-- `engine.go:1213`. -/
def errLockRepeated : Err := .msg 6

/-- `e.executor.Entity2Model(entity, parent, op)`, a tracked external call. (`engine.go:858,931`.) -/
def convert (n : Node) (parent : Option Node) (op : Op) : M Model := fun s =>
  let r := env.conv s.trace s.heap n parent op
  (r, s.log (.conv n parent op r.stat (match r with | .err e => e.is .notRegister | _ => false)))

/-- callback of `updateSnapshot` (`engine.go:853-867`): entities already recorded are left alone (except the
container); the test `errors.Is(ErrEntityNotRegister, err)` has its arguments swapped. -/
def snapshotVisit (v : Visit Node) : M Unit := fun s =>
  match s.snap v.entity, v.entity with
  | some _, some _ => (.ok (), s)
  | _, _ =>
    match convert env v.entity v.parent .query s with
    | (.panic, s') => (.panic, s')
    | (.err e, s') =>
      if e.swappedIs .notRegister then
        (.ok (), { s' with snap := fun n => if n = v.entity
                    then some { po := none, kids := s.graph.kids v.entity, keys := s.graph.keys v.entity } else s'.snap n })
      else (.err e, s')
    | (.ok m, s') =>
      (.ok (), { s' with snap := fun n => if n = v.entity
                  then some { po := some m, kids := s.graph.kids v.entity, keys := s.graph.keys v.entity } else s'.snap n })

/-- `updateSnapshot` (`engine.go:852-868`); `childrenSnapshot` (`engine.go:836-844`) copies, so a snapshot is a value. -/
def updateSnapshot : M Unit := fun s =>
  M.forEach (walk s.graph (env.ord s.trace 1) none none) (snapshotVisit env) s

/-- `flush` (`engine.go:846-849`). -/
def flush : M Unit := fun s => updateSnapshot env { s with snap := fun _ => none }

/-- `hasSnapshot` (`engine.go:870-872`). -/
def St.hasSnapshot (s : St) (p : Ptr) : Bool := (s.snap (some p)).isSome

/-- `unDirty` (`engine.go:875-880`). -/
def unDirty : M Unit := fun s =>
  M.forEach (walk s.graph (env.ord s.trace 2) none none)
    (fun v => M.modify fun s => match v.entity with
      | none => s
      | some p => { s with heap := s.heap.setAttr p fun a => { a with dirty := false } }) s

/-- the child lists of the snapshot pool. (`engine.go:852-868`, `snapshot.go:33-39`.) -/
def St.kidPool (s : St) : KidPool Node := fun n => (s.snap n).map Snap.kids

/-- `getEntityChanged` (`engine.go:882-894`); pure, no external call. -/
def entityChanges (s : St) : Option (List (Change Node)) :=
  (handleEntityMove (entityDiff s.graph s.heap.dirtyNode s.kidPool none)).map fun cs =>
    if opts.recursiveDelete then recursiveDelete s.graph (env.ord s.trace 3) (env.ord s.trace 4) cs else cs

/-- `getEntityChanged` as called from `persist`. (`engine.go:1067`.) -/
def getEntityChanged : M (List (Change Node)) := fun s =>
  match entityChanges env opts s with
  | some cs => (.ok cs, s)
  | none => (.err errEntityRepeated, s)

/-- `execHook` (`engine.go:1106-1145`): calls the hook if the entity's type implements it. -/
def execHook (ct : ChangeType) (before : Bool) (n : Node) : M Unit := fun s =>
  match n with
  | none => (.ok (), s)
  | some p =>
    if ct ≠ .clear ∧ env.hasHook p ⟨ct, before⟩ = true then
      M.extH (fun s => env.hook s.trace s.heap n ⟨ct, before⟩) (fun st => .hook n ⟨ct, before⟩ st) s
    else (.ok (), s)

/-- the hook loops of `persist` (`engine.go:1072-1078,1093-1099`). -/
def runHooks (before : Bool) (cs : List (Change Node)) : M Unit :=
  M.forEach cs fun c => M.forEach c.children (execHook env c.ctype before)

/-- the body of `putNewID` for one child (`engine.go:911-918`). -/
def putID (n : Node) : M Unit := fun s =>
  match n with
  | none => (.ok (), s)
  | some p =>
    if (s.heap.attr p).id = 0 then
      M.bind (M.ext (fun s => env.newID s.trace) .newID)
        (fun id => M.modify fun s => { s with heap := s.heap.setAttr p fun a => { a with id := id } }) s
    else (.ok (), s)

/-- `putNewID` (`engine.go:907-922`). -/
def putNewID (cs : List (Change Node)) : M Unit :=
  M.forEach cs fun c =>
    if c.ctype = .new then M.forEach c.children (putID env) else M.pure ()

/-- state of the loop of `makeActions`: `typeActions` as an association list and `poTypes`. (`engine.go:925-929`.) -/
structure ActAcc where
  acts : List ((Op × Nat) × Action)
  types : List Nat

/-- `typeActions[op][typ]` add one model (`engine.go:939-955`); `prev` only for updates. -/
def ActAcc.add (acc : ActAcc) (op : Op) (m : Model) (prev : List (Option Model)) : ActAcc :=
  { types := acc.types ++ [m.typ]
    acts :=
      if acc.acts.any fun x => x.1 = (op, m.typ) then
        acc.acts.map fun x => if x.1 = (op, m.typ)
          then (x.1, { x.2 with models := x.2.models ++ [m], prev := x.2.prev ++ prev }) else x
      else acc.acts ++ [((op, m.typ), { op := op, models := [m], prev := prev })] }

/-- loop body of `makeActions` (`engine.go:929-956`) for one entity of a change. A nil snapshot makes
`e.snapshot[entity].po` panic. -/
def actStep (c : Change Node) (n : Node) (acc : ActAcc) : M ActAcc := fun s =>
  match convert env n (some c.parent) c.ctype.op s with
  | (.panic, s') => (.panic, s')
  | (.err e, s') => if e.is .notRegister then (.ok acc, s') else (.err e, s')
  | (.ok m, s') =>
    if c.ctype.op = .update then
      match s'.snap n with
      | none => (.panic, s')
      | some sn => (.ok (acc.add .update m [sn.po]), s')
    else (.ok (acc.add c.ctype.op m []), s')

/-- inner loop of `makeActions`. (`engine.go:929-955`.) -/
def actLoop (c : Change Node) : List Node → ActAcc → M ActAcc
  | [], acc => M.pure acc
  | n :: ns, acc => M.bind (actStep env c n acc) fun acc => actLoop c ns acc

/-- outer loop of `makeActions`. (`engine.go:928-956`.) -/
def actLoops : List (Change Node) → ActAcc → M ActAcc
  | [], acc => M.pure acc
  | c :: cs, acc => M.bind (actLoop env c c.children acc) fun acc => actLoops cs acc

/-- one pass `for _, at := range poTypes` for one operation (`engine.go:960-966`): take the action and delete its entry. -/
def collectOp (op : Op) : List Nat → List ((Op × Nat) × Action) → List Action
  | [], _ => []
  | t :: ts, acts =>
    match acts.find? fun x => x.1 = (op, t) with
    | none => collectOp op ts acts
    | some x => x.2 :: collectOp op ts (acts.filter fun y => decide (y.1 ≠ (op, t)))

/-- the final loop of `makeActions` (`engine.go:958-968`). -/
def ActAcc.actions (acc : ActAcc) : List Action :=
  [Op.insert, Op.update, Op.delete].flatMap fun op => collectOp op acc.types acc.acts

/-- `makeActions` (`engine.go:925-969`). -/
def makeActions (cs : List (Change Node)) : M (List Action) :=
  M.bind (actLoops env cs { acts := [], types := [] }) fun acc => M.pure acc.actions

/-- `exec` (`engine.go:1147-1158`). -/
def exec (as : List Action) : M Unit :=
  if opts.dryRun then M.pure () else
  M.bind (M.forEach as fun a => M.ext (fun s => env.exec s.trace a) (.exec a)) fun _ =>
    M.modify fun s => { s with actions := s.actions ++ as }

/-- `recycle` (`engine.go:896-904`). -/
def recycle (cs : List (Change Node)) : M Unit :=
  M.modify fun s => { s with deleted := s.deleted ++
    (cs.filter fun c => decide (c.ctype = .delete)).flatMap Change.children }

/-- `persist` (`engine.go:1065-1104`). -/
def persist : M Unit := do
  let cs ← getEntityChanged env opts
  runHooks env true cs
  putNewID env cs
  let as ← makeActions env cs
  exec env opts as
  runHooks env false cs
  recycle cs

/-- `commit` (`engine.go:1053-1063`). -/
def commitSave : M Unit := do
  persist env opts
  flush env
  unDirty env

/-! ## Repository (`engine.go:184-276`) -/

/-- `EntityContainer.Add` (`engine.go:90-99`). -/
def containerAdd (root : Ptr) : M Unit := fun s =>
  if root ∈ s.roots then (.err (.sent .repeated), s) else (.ok (), { s with roots := s.roots ++ [root] })

/-- `EntityContainer.Remove` (`engine.go:101-115`). -/
def containerRemove (root : Ptr) : M Unit := fun s =>
  if root ∈ s.roots then
    (.ok (), { s with roots := s.roots.filter fun r => decide (r ≠ root), deleted := s.deleted ++ [some root] })
  else (.err (.sent .notFound), s)

/-- `Stage.BuildEntity` (`engine.go:641-683`) as one external step, after the check of the ID. -/
def buildEntity (root : Ptr) : M Unit := fun s =>
  if (s.heap.attr root).id = 0 then (.err errParentNoID, s)
  else M.extH (fun s => env.query s.trace s.heap root) (.query root) s

/-- `Repository.Get` (`engine.go:201-214`). -/
def repoGet (root : Ptr) : M Unit := fun s =>
  if s.hasSnapshot root then (.err errHasAdded, s)
  else (do
    buildEntity env root
    containerAdd root
    updateSnapshot env) s

/-- loop of `Repository.CustomGet` (`engine.go:220-227`). -/
def customAdd (root : Ptr) : M Unit := fun s =>
  if s.hasSnapshot root then (.err errHasAdded, s) else containerAdd root s

/-- `Repository.CustomGet` (`engine.go:217-230`); `getter` is user code changing the heap. -/
def repoCustomGet (getter : Heap → Heap) (roots : List Ptr) : M Unit := do
  M.modify fun s => { s with heap := getter s.heap }
  M.forEach roots customAdd
  updateSnapshot env

/-- `Repository.appendError` (`engine.go:190-192`). -/
def appendErr (e : Err) : M Unit := M.modify fun s => { s with errs := s.errs ++ [e] }

/-- `Repository.Add` (`engine.go:233-244`): stops at the first misuse and records it. -/
def repoAdd : List Ptr → M Unit
  | [] => M.pure ()
  | r :: rs => fun s =>
    if s.hasSnapshot r then appendErr errMustBeNew s
    else match containerAdd r s with
      | (.err e, s') => appendErr e s'
      | (_, s') => repoAdd rs s'

/-- last loop of `Repository.Remove` (`engine.go:262-267`). -/
def repoRemoveLoop : List Ptr → M Unit
  | [] => M.pure ()
  | r :: rs => fun s =>
    match containerRemove r s with
    | (.err e, s') => appendErr e s'
    | (_, s') => repoRemoveLoop rs s'

/-- `Repository.Remove` (`engine.go:247-268`): unknown roots are added (and recorded in the snapshot) first. -/
def repoRemove (roots : List Ptr) : M Unit := fun s =>
  let toCreate := roots.filter fun r => decide (r ∉ s.roots)
  if toCreate.isEmpty then repoRemoveLoop roots s
  else
    match repoAdd toCreate s with
    | (.panic, s1) => (.panic, s1)
    | (_, s1) =>
      match updateSnapshot env s1 with
      | (.panic, s2) => (.panic, s2)
      | (.err e, s2) => appendErr e s2
      | (.ok _, s2) => repoRemoveLoop roots s2

/-- `Repository.Save` (`engine.go:271-276`). -/
def repoSave : M Unit := fun s =>
  match Err.joinAll s.errs with
  | some e => (.err e, s)
  | none => commitSave env opts s

/-! ## User code -/

/-- A user `Main` (or `Build`+`Act` of an `ICommand`): an arbitrary interaction tree.
* `mutate`/`look`: arbitrary changes of and decisions on the user's objects;
* `get`, `customGet`, `add`, `remove`, `save`: the `Repository` API;
* `commit`, `output`: the `StageAgent` API (`command.go:65-71`);
* `build`: `DomainBuilder.Build`; `enter`: end of `Build` in an `ICommand`; `cAdd`, `cRemove`: `RootContainer`. -/
inductive Prog where
  | ret (r : Option Err)
  | panic
  | mutate (f : Heap → Heap) (k : Prog)
  | look (k : Heap → Prog)
  | get (root : Ptr) (k : Option Err → Prog)
  | customGet (getter : Heap → Heap) (roots : List Ptr) (k : Option Err → Prog)
  | add (roots : List Ptr) (k : Prog)
  | remove (roots : List Ptr) (k : Prog)
  | save (k : Option Err → Prog)
  | commit (k : Option Err → Prog)
  | output (v : Nat) (k : Prog)
  | build (root : Ptr) (k : Option Err → Prog)
  | enter (roots : List Ptr) (k : Prog)
  | cAdd (root : Ptr) (k : Prog)
  | cRemove (root : Ptr) (k : Prog)

/-- `runCommand`'s steps between `Build` and `Act` (`engine.go:784-794`). -/
def enterRoots (roots : List Ptr) : M Unit := fun s =>
  if roots.any fun r => (s.heap.attr r).id = 0 then (.err errBuildNoID, s)
  else flush env { s with roots := roots }

/-- Running user code. `RootContainer` is passed to `Act` by value (`engine.go:796-797`): errors recorded by
`cAdd`/`cRemove` are appended to the copy and lost (`engine.go:165-182,799`). -/
def runProg : Prog → M Unit
  | .ret none => M.pure ()
  | .ret (some e) => M.fail e
  | .panic => M.crash
  | .mutate f k => fun s => runProg k { s with heap := f s.heap }
  | .look k => fun s => runProg (k s.heap) s
  | .get r k => M.bind (M.attempt (repoGet env r)) fun e => runProg (k e)
  | .customGet g rs k => M.bind (M.attempt (repoCustomGet env g rs)) fun e => runProg (k e)
  | .add rs k => M.bind (repoAdd rs) fun _ => runProg k
  | .remove rs k => M.bind (repoRemove env rs) fun _ => runProg k
  | .save k => M.bind (M.attempt (repoSave env opts)) fun e => runProg (k e)
  | .commit k => M.bind (M.attempt (commitSave env opts)) fun e => runProg (k e)
  | .output v k => fun s => runProg k { s with output := v }
  | .build r k => M.bind (M.attempt (buildEntity env r)) fun e => runProg (k e)
  | .enter rs k => M.bind (enterRoots env rs) fun _ => runProg k
  | .cAdd r k => M.bind (M.attempt (containerAdd r)) fun _ => runProg k
  | .cRemove r k => M.bind (M.attempt (containerRemove r)) fun _ => runProg k

/-! ## Events (`engine.go:971-1051`) -/

/-- `eventMap[evt.ID] = evt`. (`engine.go:972-987`.) -/
def putEvent (m : List Event) (e : Event) : List Event :=
  if m.any fun x => x.id == e.id then m.map fun x => if x.id = e.id then e else x else m ++ [e]

/-- order of `sort.SliceStable` in `collectEvents` (`engine.go:993-996`). -/
def evLe (a b : Event) : Prop := a.createdAt < b.createdAt ∨ (a.createdAt = b.createdAt ∧ a.id ≤ b.id)

/-- Auxiliary (decidability or do-notation), no counterpart in `engine.go`. -/
instance : DecidableRel evLe := fun a b => by unfold evLe; infer_instance

/-- the nodes walked by `collectEvents` (`engine.go:972-987`). -/
def eventNodes (s : St) : List Node :=
  (walk s.graph (env.ord s.trace 5) none none).map Visit.entity ++
    s.deleted.flatMap fun d => (walk s.graph (env.ord s.trace 6) d none).map Visit.entity

/-- `collectEvents` (`engine.go:971-998`). The order in which the map is ranged over does not matter as IDs are distinct. -/
def collectEvents (s : St) : List Event :=
  (((eventNodes env s).flatMap s.heap.eventsOf).foldl putEvent []).insertionSort evLe

/-- `EventBus.Dispatch` of the given events. (`engine.go:1016-1051`.) -/
def busDispatch (es : List Event) : M Unit := M.ext (fun s => env.dispatch s.trace es) (.dispatch es)

/-- `e.eventCtx, err = txBus.DispatchBegin(ctx, txEvents...)` (`engine.go:1031-1037`): the context is assigned also when an error
is returned. -/
def busBegin (txs : List Event) : M Unit := fun s =>
  match (env.dispatchBegin s.trace txs).2 with
  | .panic => (.panic, s.log (.dispatchBegin txs .panic))
  | r => (r, { s with eventCtx := (env.dispatchBegin s.trace txs).1 }.log (.dispatchBegin txs r.stat))

/-- `dispatchEvents` (`engine.go:1016-1051`); the bus is not nil here. -/
def dispatchEvents (es : List Event) : M Unit :=
  if opts.dryRun then M.pure ()
  else if !opts.withTransaction || decide (opts.bus ≠ .tx) then busDispatch env es
  else
    M.bind (if es.any Event.tx then busBegin env (es.filter Event.tx) else M.pure ()) fun _ =>
      if es.any fun e => !e.tx then busDispatch env (es.filter fun e => !e.tx) else M.pure ()

/-- `makeEventPersistAction` (`engine.go:1000-1014`). -/
def eventModels : List Event → M (List Model)
  | [] => M.pure []
  | e :: es => M.bind (M.ext (fun s => env.evModel s.trace e) (.evModel e)) fun m =>
      M.bind (eventModels es) fun ms => M.pure (m :: ms)

/-! ## Save (`engine.go:1164-1305`) -/

/-- `Result` (`engine.go:132-137`). -/
structure Result where
  error : Option Err
  brk : Bool
  actions : List Action
  output : Nat

/-- `ResultError`, `ResultErrors`, `ResultErrOrBreak` (`engine.go:139-152`): fresh results. -/
def resultError (e : Err) : Result := { error := some e, brk := false, actions := [], output := 0 }
/-- `ResultErrors` (`engine.go:139-141`). -/
def resultErrors (e : Err) : Result := resultError (.errList [e])
/-- `ResultErrOrBreak` (`engine.go:147-152`). -/
def resultErrOrBreak (e : Err) : Result :=
  if e.is .brk then { error := none, brk := true, actions := [], output := 0 } else resultError e

/-- outcome of `do`, `Save` …: a result or a panic. (`doSave` (`engine.go:1206`).) -/
abbrev Outcome := Option Result × St

/-- wrap an error in `ErrList` (`ResultErrors`). (`engine.go:139-141`.) -/
def inErrList (x : Res Unit × St) : Res Unit × St :=
  match x with
  | (.err e, s) => (.err (.errList [e]), s)
  | x => x

/-- persisting the events (`engine.go:1183-1191`). -/
def persistEvents (es : List Event) : M Unit := fun s =>
  match eventModels env es s with
  | (.ok ms, s1) => exec env opts [{ op := .insert, models := ms, prev := [] }] s1
  | (.err e, s1) => (.err (.errList [e]), s1)
  | (.panic, s1) => (.panic, s1)

/-- dispatching the events (`engine.go:1194-1201`). -/
def sendEvents (es : List Event) : M Unit := fun s =>
  if opts.bus = .nil then (.err (.errList [.sent .noEventBus]), s)
  else inErrList (dispatchEvents env opts es s)

/-- event part of `do` (`engine.go:1182-1201`). -/
def finishEvents : M Unit := fun s =>
  let es := collectEvents env s
  if es.isEmpty then (.ok (), s)
  else M.bind (if opts.eventPersist then persistEvents env opts es else M.pure ())
    (fun _ => sendEvents env opts es) s

/-- the call of `e.main` in `do` (`engine.go:1167-1171`). -/
def callMain (main : Prog) : M Unit := fun s =>
  match runProg env opts main { s with trace := s.trace ++ [.mainStart] } with
  | (r, s1) => (r, s1.log (.mainRet r.stat))

/-- `do` (`engine.go:1164-1204`). -/
def doStage (main : Prog) (s : St) : Outcome :=
  match callMain env opts main s with
  | (.panic, s1) => (none, s1)
  | (.err e, s1) => (some (resultErrOrBreak e), s1)
  | (.ok _, s1) =>
    match Err.joinAll s1.errs with
    | some e => (some (resultError e), s1)
    | none =>
      match persist env opts s1 with
      | (.panic, s2) => (none, s2)
      | (.err e, s2) => (some (resultErrors e), s2)
      | (.ok _, s2) =>
        match finishEvents env opts s2 with
        | (.panic, s3) => (none, s3)
        | (.err e, s3) => (some (resultError e), s3)
        | (.ok _, s3) => (some { error := none, brk := false, actions := s3.actions, output := s3.output }, s3)

/-- an external call whose error is ignored or only logged; the answer tells the caller what happened. (Auxiliary of the model, calls in `engine.go:1208-1310`.) -/
def callOut (ans : Trace → Res Unit) (mk : Stat → Call) (s : St) : Res Unit × St :=
  (ans s.trace, s.log (mk (ans s.trace).stat))

/-- the deferred function of `runWithTransaction` after a panic (`engine.go:1250-1257`): roll back and re-panic. -/
def recoverRollback (s : St) : Outcome := (none, (callOut env.rollback .rollback s).2)

/-- a transactional bus with a pending transaction context (`engine.go:1264-1268,1277-1281`). -/
def busPending (s : St) : Bool := decide (opts.bus = .tx) && s.eventCtx

/-- `runWithTransaction` (`engine.go:1244-1286`). -/
def runWithTransaction (f : St → Outcome) (s : St) : Outcome :=
  match callOut env.begin_ .begin s with
  | (.panic, s1) => (none, s1)
  | (.err e, s1) => (some (resultErrors e), s1)
  | (.ok _, s1) =>
    match f s1 with
    | (none, s2) => recoverRollback env s2
    | (some r, s2) =>
      if r.error.isSome || r.brk then
        match callOut env.rollback .rollback s2 with
        | (.panic, s3) => recoverRollback env s3
        | (_, s3) =>
          if busPending opts s3 then
            match callOut env.busRollback .busRollback s3 with
            | (.panic, s4) => recoverRollback env s4
            | (_, s4) => (some r, s4)
          else (some r, s3)
      else
        match callOut env.commit .commit s2 with
        | (.panic, s3) => recoverRollback env s3
        | (.err e, s3) => (some { r with error := some e }, s3)
        | (.ok _, s3) =>
          if busPending opts s3 then
            match callOut env.busCommit .busCommit s3 with
            | (.panic, s4) => recoverRollback env s4
            | (_, s4) => (some r, s4)
          else (some r, s3)

/-- result of the acquisition loop of `runOnLock` (`engine.go:1217-1228`). -/
inductive LockRes where
  | all | failed (e : Err) | panic

/-- acquisition loop (`engine.go:1217-1228`); returns the keys obtained so far. -/
def acquire : List Nat → List Nat → St → LockRes × List Nat × St
  | [], got, s => (.all, got, s)
  | k :: ks, got, s =>
    match callOut (fun t => env.lock t k) (.lock k) s with
    | (.ok _, s1) => acquire ks (got ++ [k]) s1
    | (.err e, s1) => (.failed (.wrap e), got, s1)
    | (.panic, s1) => (.panic, got, s1)

/-- the deferred unlock loop (`engine.go:1229-1235`); `true` if it ran to its end, a panic stops it. -/
def releaseAll : List Nat → St → Bool × St
  | [], s => (true, s)
  | k :: ks, s =>
    match callOut (fun t => env.unlock t k) (.unlock k) s with
    | (.panic, s1) => (false, s1)
    | (_, s1) => releaseAll ks s1

/-- sorted keys with a repetition (`engine.go:1211-1215`). -/
def hasAdjacentDup : List Nat → Bool
  | a :: b :: l => decide (a = b) || hasAdjacentDup (b :: l)
  | _ => false

/-- `runOnLock` (`engine.go:1208-1242`). A panic inside `Lock` happens before the deferred unlock is installed. -/
def runOnLock (keys : List Nat) (f : St → Outcome) (s : St) : Outcome :=
  let ks := keys.insertionSort (· ≤ ·)
  if hasAdjacentDup ks then (some (resultErrors errLockRepeated), s)
  else
    match acquire env ks [] s with
    | (.panic, _, s1) => (none, s1)
    | (.failed e, got, s1) =>
      match releaseAll env got s1 with
      | (true, s2) => (some (resultErrors e), s2)
      | (false, s2) => (none, s2)
    | (.all, got, s1) =>
      match f s1 with
      | (r, s2) =>
        match releaseAll env got s2 with
        | (true, s3) => (r, s3)
        | (false, s3) => (none, s3)

/-- PostSave loop of `Save` (`engine.go:1299-1303`). -/
def postSaves : List Nat → St → Bool × St
  | [], s => (true, s)
  | h :: hs, s =>
    match callOut (fun t => env.postSave t h) (.postSave h) s with
    | (.panic, s1) => (false, s1)
    | (_, s1) => postSaves hs s1

/-- everything of `Save` before the hooks. (`engine.go:1288-1300`.) -/
def saveCore (lockKeys : List Nat) (main : Prog) : St → Outcome :=
  let f := doStage env opts main
  let f := if opts.withTransaction then runWithTransaction env opts f else f
  if lockKeys.isEmpty then f else runOnLock env lockKeys f

/-- `Stage.Save` (`engine.go:1288-1305`). -/
def save (lockKeys : List Nat) (main : Prog) (s : St) : Outcome :=
  match saveCore env opts lockKeys main s with
  | (none, s1) => (none, s1)
  | (some r, s1) =>
    if r.error.isNone then
      match postSaves env opts.hooks s1 with
      | (true, s2) => (some r, s2)
      | (false, s2) => (none, s2)
    else (some r, s1)

/-- a fresh stage (`NewStage`, `engine.go:470-483`). -/
def St.fresh (h : Heap) : St :=
  { heap := h, roots := [], deleted := [], snap := fun _ => none, errs := [], actions := [], output := 0,
    eventCtx := false, trace := [] }

/-- The commands accepted by `Stage.Run` (`engine.go:809-834`): `init` is the answer of `Init` (if the command has one),
`post` its PostSave hook (if any). -/
structure Cmd where
  init : Option (Res (List Nat))
  main : Prog
  post : Option Nat

/-- `Stage.Run` (`engine.go:769-834`) on a fresh stage of an engine with options `opts`. -/
def run (c : Cmd) (h : Heap) : Outcome :=
  let opts' := { opts with hooks := opts.hooks ++ c.post.toList }
  match c.init with
  | none => save env opts' [] c.main (.fresh h)
  | some (.ok keys) => save env opts' keys c.main (.fresh h)
  | some (.err e) => (some (resultErrOrBreak e), .fresh h)
  | some .panic => (none, .fresh h)

end
end Ddd
