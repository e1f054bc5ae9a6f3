import Verif.Model.Stage
/-!
# The values accepted by `Run`

Models the type switch of `Stage.Run` (`engine.go:809-834`), `runCommand` (`engine.go:769-803`), `Engine.Create` and `Engine.Delete` (`engine.go:485-497`) and the
`StageAgent` handed to commands (`command.go:58-71,104-106`). `Model/Stage.lean` has the rest of a run; its `Cmd` is what these values amount to.
-/
namespace Ddd.Kinds
open Ddd

/-- user code of `Init(ctx) (lockKeys, err)`: no repository; `Commit` and `Output` through the agent, if the command has one. (`ICommandInit` (`command.go:48-51`).) -/
inductive IProg where
  | done (keys : List Nat)
  | fail (e : Err)
  | panic
  | mutate (f : Heap → Heap) (k : IProg)
  | look (k : Heap → IProg)
  | commit (k : Option Err → IProg)
  | output (v : Nat) (k : IProg)

/-- user code of `Build(ctx, builder) (roots, err)`: `build` is `DomainBuilder.Build` (`engine.go:158-162`). -/
inductive BProg where
  | done (roots : List Ptr)
  | fail (e : Err)
  | panic
  | mutate (f : Heap → Heap) (k : BProg)
  | look (k : Heap → BProg)
  | build (root : Ptr) (k : Option Err → BProg)
  | commit (k : Option Err → BProg)
  | output (v : Nat) (k : BProg)

/-- A value given to `Run`: the methods its type has (with the right signatures), or the function it is. `SetStage` is taken to be there whenever `Commit` or `Output` are
used. (`engine.go:809-834`, `command.go:26-59`.) -/
structure Obj where
  init : Option IProg
  build : Option BProg
  act : Option (List Ptr → Prog)
  post : Option Nat
  main : Option Prog
  func : Option Prog

section
variable (env : Env) (opts : Opts)

/-- running `Init`; `agent`: `SetStage` was called. The zero `StageAgent` has a nil stage: its methods panic (`command.go:62-71`). -/
def runInit (agent : Bool) : IProg → M (List Nat)
  | .done keys => M.pure keys
  | .fail e => M.fail e
  | .panic => M.crash
  | .mutate f k => fun s => runInit agent k { s with heap := f s.heap }
  | .look k => fun s => runInit agent (k s.heap) s
  | .commit k => if agent then M.bind (M.attempt (commitSave env opts)) fun e => runInit agent (k e) else M.crash
  | .output v k => if agent then fun s => runInit agent k { s with output := v } else M.crash

/-- running `Build`; only commands with an agent have it. (`c.Build(ctx, ...)` (`engine.go:779`).) -/
def runBuild : BProg → M (List Ptr)
  | .done rs => M.pure rs
  | .fail e => M.fail e
  | .panic => M.crash
  | .mutate f k => fun s => runBuild k { s with heap := f s.heap }
  | .look k => fun s => runBuild (k s.heap) s
  | .build r k => M.bind (M.attempt (buildEntity env r)) fun e => runBuild (k e)
  | .commit k => M.bind (M.attempt (commitSave env opts)) fun e => runBuild (k e)
  | .output v k => fun s => runBuild k { s with output := v }
end

/-- the function given to `Main` in `runCommand` (`engine.go:778-802`) as one piece of user code: `Build`, the checks and the snapshot (`Prog.enter`), `Act`. -/
def body (act : List Ptr → Prog) : BProg → Prog
  | .done rs => .enter rs (act rs)
  | .fail e => .ret (some e)
  | .panic => .panic
  | .mutate f k => .mutate f (body act k)
  | .look k => .look fun h => body act (k h)
  | .build r k => .build r fun e => body act (k e)
  | .commit k => .commit fun e => body act (k e)
  | .output v k => .output v (body act k)

/-- `Main` of a command that is no `ICommand`: `SetStage` is not called for it (`engine.go:813-830`), using the agent panics. -/
def noAgent : Prog → Prog
  | .ret r => .ret r
  | .panic => .panic
  | .mutate f k => .mutate f (noAgent k)
  | .look k => .look fun h => noAgent (k h)
  | .get r k => .get r fun e => noAgent (k e)
  | .customGet g rs k => .customGet g rs fun e => noAgent (k e)
  | .add rs k => .add rs (noAgent k)
  | .remove rs k => .remove rs (noAgent k)
  | .save k => .save fun e => noAgent (k e)
  | .commit _ => .panic
  | .output _ _ => .panic
  | .build r k => .build r fun e => noAgent (k e)
  | .enter rs k => .enter rs (noAgent k)
  | .cAdd r k => .cAdd r (noAgent k)
  | .cRemove r k => .cRemove r (noAgent k)

section
variable (env : Env) (opts : Opts)

/-- after `Init`: lock, transaction, `main`, save, hooks (`engine.go:778,826`). -/
def afterInit (post : Option Nat) (main : Prog) (x : Res (List Nat) × St) : Outcome :=
  match x with
  | (.ok keys, s) => save env { opts with hooks := opts.hooks ++ post.toList } keys main s
  | (.err e, s) => (some (resultErrOrBreak e), s)
  | (.panic, s) => (none, s)

/-- `Stage.Run` (`engine.go:809-834`) on a fresh stage: `ICommand` is tried first, then `ICommandMain`, then functions; anything else panics. -/
def runObj (o : Obj) (h : Heap) : Outcome :=
  match o.init, o.build, o.act, o.post with
  | some i, some b, some a, some p => afterInit env opts (some p) (body a b) (runInit env opts true i (.fresh h))
  | _, _, _, _ =>
    match o.main with
    | some m =>
      match o.init with
      | some i => afterInit env opts o.post (noAgent m) (runInit env opts false i (.fresh h))
      | none => save env { opts with hooks := opts.hooks ++ o.post.toList } [] (noAgent m) (.fresh h)
    | none =>
      match o.func with
      | some m => save env opts [] (noAgent m) (.fresh h)
      | none => (none, .fresh h)

/-- `Engine.Create` (`engine.go:485-490`). -/
def create (roots : List Ptr) (h : Heap) : Outcome := save env opts [] (.add roots (.ret none)) (.fresh h)

/-- `Engine.Delete` (`engine.go:492-497`). -/
def delete (roots : List Ptr) (h : Heap) : Outcome := save env opts [] (.remove roots (.ret none)) (.fresh h)
end
end Ddd.Kinds
