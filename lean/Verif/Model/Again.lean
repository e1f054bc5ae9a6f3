import Verif.Model.Stage
/-!
# A stage that is saved more than once

`Model/Stage.lean` has one `Save` of a new stage. The fields of a `Stage` (`engine.go:587-605`) outlive a `Save`: the aggregate, the snapshots, the result object `e.result` with its actions, output
and error, and the event context. This file has `Save` as a step of a stage that may have been saved before.
-/
namespace Ddd
namespace Again

/-- A stage (`engine.go:587-605`): the fields of `St`, and `e.result.Error`. (`e.result.Actions` and `e.result.Output` are `st.actions` and `st.output`; `e.result.Break` is never set,
`engine.go:376-400`.) -/
structure Stage where
  st : St
  error : Option Err

/-- `NewStage` (`engine.go:470-483`); `h` are the objects of the program. -/
def new (h : Heap) : Stage := { st := .fresh h, error := none }

/-- what `do` returns: `own` if it is the stage's own result object (`return e.result`, `engine.go:1203`), whose error may be set already. -/
inductive Done where
  | panic
  | other (r : Result)
  | own (r : Result)

section
variable (env : Env) (opts : Opts)

/-- `do` (`engine.go:1164-1204`). Every call has its own repository (`engine.go:1168`), so its errors start empty. -/
def doStage (main : Prog) (s : Stage) : Done × Stage :=
  match Ddd.doStage env opts main { s.st with errs := [] } with
  | (none, s1) => (.panic, { s with st := s1 })
  | (some r, s1) => if r.error.isNone && !r.brk then (.own { r with error := s.error }, { s with st := s1 }) else (.other r, { s with st := s1 })

/-- the result as seen by the caller (`engine.go:1258,1286`). -/
def Done.result : Done → Option Result
  | .panic => none
  | .other r => some r
  | .own r => some r

/-- the deferred function of `runWithTransaction` after a panic (`engine.go:1250-1257`). -/
def recover (s : Stage) : Done × Stage := (.panic, { s with st := (recoverRollback env s.st).2 })

/-- the end of the bus transaction (`engine.go:1264-1268,1277-1281`). -/
def endBus (ans : Trace → Res Unit) (mk : Stat → Call) (d : Done) (s : Stage) : Done × Stage :=
  if busPending opts s.st then
    match callOut ans mk s.st with
    | (.panic, s1) => recover env { s with st := s1 }
    | (_, s1) => (d, { s with st := s1 })
  else (d, s)

/-- setting `result.Error` (`engine.go:1272`) -/
def Done.fail (e : Err) (s : Stage) : Done → Done × Stage
  | .panic => (.panic, s)
  | .other r => (.other { r with error := some e }, s)
  | .own r => (.own { r with error := some e }, { s with error := some e })

/-- `runWithTransaction` (`engine.go:1244-1286`). -/
def runWithTransaction (f : Stage → Done × Stage) (s : Stage) : Done × Stage :=
  match callOut env.begin_ .begin s.st with
  | (.panic, s1) => (.panic, { s with st := s1 })
  | (.err e, s1) => (.other (resultErrors e), { s with st := s1 })
  | (.ok _, s1) =>
    match f { s with st := s1 } with
    | (d, s2) =>
      match d.result with
      | none => recover env s2
      | some r =>
        if r.error.isSome || r.brk then
          match callOut env.rollback .rollback s2.st with
          | (.panic, s3) => recover env { s2 with st := s3 }
          | (_, s3) => endBus env opts env.busRollback .busRollback d { s2 with st := s3 }
        else
          match callOut env.commit .commit s2.st with
          | (.panic, s3) => recover env { s2 with st := s3 }
          | (.err e, s3) => d.fail e { s2 with st := s3 }
          | (.ok _, s3) => endBus env opts env.busCommit .busCommit d { s2 with st := s3 }

/-- `runOnLock` (`engine.go:1208-1242`). -/
def runOnLock (keys : List Nat) (f : Stage → Done × Stage) (s : Stage) : Done × Stage :=
  let ks := keys.insertionSort (· ≤ ·)
  if hasAdjacentDup ks then (.other (resultErrors errLockRepeated), s)
  else
    match acquire env ks [] s.st with
    | (.panic, _, s1) => (.panic, { s with st := s1 })
    | (.failed e, got, s1) =>
      match releaseAll env got s1 with
      | (true, s2) => (.other (resultErrors e), { s with st := s2 })
      | (false, s2) => (.panic, { s with st := s2 })
    | (.all, got, s1) =>
      match f { s with st := s1 } with
      | (d, s2) =>
        match releaseAll env got s2.st with
        | (true, s3) => (d, { s2 with st := s3 })
        | (false, s3) => (.panic, { s2 with st := s3 })

/-- everything of `Save` before the hooks (`engine.go:1288-1300`). -/
def saveCore (keys : List Nat) (main : Prog) : Stage → Done × Stage :=
  let f := doStage env opts main
  let f := if opts.withTransaction then runWithTransaction env opts f else f
  if keys.isEmpty then f else runOnLock env keys f

/-- `Stage.Save` (`engine.go:1288-1305`) of a stage that may have been saved before: the result, and the stage left. -/
def save (keys : List Nat) (main : Prog) (s : Stage) : Option Result × Stage :=
  match saveCore env opts keys main s with
  | (d, s1) =>
    match d.result with
    | none => (none, s1)
    | some r =>
      if r.error.isNone then
        match postSaves env opts.hooks s1.st with
        | (true, s2) => (some r, { s1 with st := s2 })
        | (false, s2) => (none, { s1 with st := s2 })
      else (some r, s1)
end

/-- what is set on a stage before a `Save` (`WithOption`, `Lock`, `Main`, `engine.go:607-628,752-762`). -/
structure Setup where
  opts : Opts
  keys : List Nat
  main : Prog

/-- several calls of `Save` (`engine.go:1288-1305`), one after the other; the results and the stage. -/
def saves (env : Env) : List Setup → Stage → List (Option Result) × Stage
  | [], s => ([], s)
  | x :: xs, s =>
    match save env x.opts x.keys x.main s with
    | (r, s1) =>
      match saves env xs s1 with
      | (rs, s2) => (r :: rs, s2)
end Again
end Ddd
