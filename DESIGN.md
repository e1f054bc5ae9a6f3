# Formal model of bytedance/dddfirework — design

Lean 4.33.0; source of truth is `/repo` (read as text). Modules under `lean/Verif`:

| layer | files | content |
|---|---|---|
| `Model/*` | one file per Go file group | executable definitions, every one citing file:lines |
| `Spec/*` | short, no dependence on model helpers | the vocabulary property statements are written in |
| `Proofs/*` | helper lemmas | |
| `Props/*` | the property theorems `C##_…` and, next to each, a non-vacuity `example` | |

## Model components

1. **Entity graph / snapshot** (`snapshot.go`, `engine.go` container part). Objects are pointers
   (`Ptr`); a graph gives, per node, the ordered list of (field key, child pointers) which
   `findChildren` returns. Node type is `Option Ptr`, `none` being the stage's `EntityContainer`.
   Graphs carry a height function (acyclicity): on cyclic graphs the Go recursion overflows the stack.
   Go map iteration order is a parameter (an arbitrary permutation per node), so theorems hold for every order.
   Slices that are edited in place while being iterated (`handleEntityMove`) are modelled as backing list + length.
2. **Stage pipeline** (`engine.go` 560-1305). User code (`Main`) is an arbitrary interaction tree over the
   repository API which may read and mutate the heap arbitrarily; every external call (executor, locker, bus, hooks, ID
   generator, converter) is answered by an oracle that sees the whole call history and may answer ok, error or
   panic. `Stage.Save` is a function from (program, oracle, options) to result + call trace. `defer`/`recover`
   are modelled by an explicit outcome `panic`.
3. **Store semantics** for traces: a transactional key/value store; crash = prefix of the trace.
4. **Router** (`event.go`).
5. **MySQL event bus** (`eventbus/mysql`): four tables as lists with auto-increment counters; statements are the
   atomic steps; workers hold possibly stale scans; time is a natural number.
6. **Memory bus, DB lock, DB timer**: labelled transition systems with statement granularity.
7. **Model diff and executor** (`executor/mysql`): Go values as an inductive type.

## Properties: what is modelled, how proved

A claim is `partial` when its English statement is false of the code or only part of it is proved: then the theorem proving the part that holds (usually under a hypothesis the English does not have, or one of its sentences) ends in `_partial`, and further theorems beside it are counterexamples or say exactly when the claim fails. C13, C61, C86 and C108 are refuted outright for every program, so that no positive part is left.

* C01 graph model; `entityDiff` by well-founded recursion on height; induction on height against a set-theoretic spec.
* C02 stage model: `flush` + `unDirty` then `entityDiff` is empty (induction on height), lifted to `persist`.
* C03 literal executor over store keyed by (type,id) (`Spec/Store`: insert of an existing key fails, update of a missing row does nothing); fold over actions equals the pointwise spec.
* C04 in-place slice model of `handleEntityMove`; full success characterisation; counterexample + `_partial`.
* C05 same model; error before any call is issued.
* C06 `putNewID` fold; ordering in `persist` trace.
* C07 `makeActions` grouping invariant by induction on changes.
* C08/C09 `recursiveDelete` vs reachability; counterexample for detached descendants. `C08_once_per_place` (Props/RecDelete.lean): the deletes of a save with recursive delete are, as a multiset, the places (`Spec/Paths.lean`: start and way down) below what is taken out; the delete hooks likewise (`C60_hooks_recursive`); an entity may hang at two such places (`C60_recursive_twice`).
* C10/C11 invariants of the snapshot pool over repository operations.
* C12/C13 induction over programs; C13 counterexample (container passed by value).
* C14–C19, C21–C23, C30–C33, C60 one trace-shape theorem for `Save` for all programs and oracles, then corollaries.
  C32 is false (commit may fail after dispatch): counterexample + partial.
* C16 prefixes of the trace interpreted over the transactional store.
* C20 slice with capacity; counterexample with spare capacity, theorem without.
* C24 wait-for graph argument over any number of processes.
* C25–C28 transition system; invariant; counterexample for late renewals.
* C29 permutation/sortedness spec, order independence.
* C34/C35 router functions.
* C36–C50 bus model: invariants by induction over operation histories; counterexamples for C37, C38 (crash then clean; concurrent
  commit), C46 (stale scan), C49 (starvation).
* C51 queue LTS. C52–C56, C63, C64 timer LTS. C57/C58 value model. C59 struct model. C61/C62 error algebra.
* C67 `Model/Load.lean`: BuildEntity with its children arguments over a store, argument by argument with a frame; C68 composes C03 and C67.
* C69 `Spec/Serial.lean`: the calls of all commands as one list; C23 gives that each holds its keys, an exclusive locker has one holder per key; blocks by induction over the list.
* C70–C72 `Model/Tx.lean`: contexts, transactions and databases of the MySQL executor as a state machine; simulation between the history and the history without the transaction's calls. C73 composes it with `run` (C14, C16) for any number of commands.
* C74–C76 `Model/Redis.lean`: clients of the Redis locker as a labelled transition system over the server's table with expiry; invariant: a holder within its lease is the one whose token is stored. C74_exclusive_for_commands discharges the assumption `Exclusive` of C69 for this locker.
* C77–C78 compositions: C77 = C69 ∘ (C25 or C74): the calls to the locker in the world are those of an execution of the lock's transition system; C78 = C69 + C73: while a command is at work nobody sharing its key commits, so its reads are those of its `Begin` plus its own writes.
* C79–C80 `Model/Consumer.lean`: `Engine.RegisterEventHandler` composed of the router model and the command model (`run`); `run_effect` (Proofs/Effect) relates result, commit and durable content of a command; C80 = C79 ∘ bus transition system (`Plays` attaches handler runs to the bus log), at most one success per record.
* C81 composition in the bus transition system: invariant `Covers` from the Begin of `Dispatch` to its nil return (records for every service registered before), then C40.
* C82 `Model/Cron.lean`: registration = router registration then `RunCron` of the DB timer model; a poll = `handleJobs` with `onTimer` = router delivery. Direct case analysis, composition of C55, C64 and C79 lemmas.
* C83 `Model/Config.lean`: `Options` as a record, each `Option` as a function on it, hook slices with backing arrays (`Model/Hooks`), attaching callbacks to buses and timers; invariant over arbitrary sequences of `NewEngine` and runs.
* C84 the command model's `Result`; the bookkeeping of writes as a preorder kept by every step of a stage (`Proofs/Writes`), outputs as a relation on program points (`Spec/Result.Says`).
* C85 heap relations containing what the framework does (`OnlyIDs`), closed under user code by a predicate on interaction trees (`Prog.Within`), kept by every step of a stage (`Proofs/Reuse`); re-dispatch from C29 on both commands.
* C86 a clean run is decomposed into Main, final save, events and calls (`run_clean_core`); the jobs of a save are determined by aggregate, snapshots and dirty flags (C01), which the final save leaves as they are.
* C87 the type switch of `Run` as a function of the methods a value has; equal to the `Cmd` of the model for every `Init` not using the agent; for `Init` using the agent an invariant (`Unused`) over its steps.
* C88 `runCommand`'s closure is compiled to one user program (`body`), proved equal to running `Build`, the check, the snapshot and `Act` in order; the lost changes of `Build` follow from C01 (jobs of a save) at the state where the snapshot equals the aggregate.
* C89 worker pool (`Model/Pool.lean`): a transition system of `dispatchEvents` with any number of goroutines over abstract work (two halves per delivery); invariants (begun = a prefix in order, ended + busy is a permutation of it), an exact step measure for termination, then instantiation with the tables of the MySQL bus (`busWork`): refinement of the sequential `handleAll` for one worker, and independence of the schedule for unordered events by commuting row updates.
* C90/C91 construction and life of a MySQL bus (`Model/BusLife.lean`): options as functions folded over the defaults; a process with restarts, `Start`, ticks (check-back, then a pass of the pool), the cleaning task, and arbitrary operations of other clients; invariants over all histories. The poisoned transaction and the failed registration are counterexamples proved for all histories.
* C92 composition of the command (`run`, any prefix of its trace as crash point, `DbRun` for the database) with the tables of the MySQL bus (`Spec/Delivery.lean`: `Story`): calls act on the tables (a failing call may have been executed), others interleave arbitrary operations, the checker is honest about the fate of the database transaction. Proof: the transactional calls of every crash point have one of six shapes (`TxShape`), then an invariant over stories (`Journey`: open, gone or delivered). `C92_possible` shows that every crash point has a story.
* C93 an LTS of the calls of `Run` (callers, renewing goroutines, tickers, contexts) above the LTS of the lock (C25–C28, generalised: renewals are asynchronous and may be executed after UnLock); the events of a call are a prefix of a story, by induction on executions.
* C94 from prompt handling of ticks follows that every renewal is timely (invariant on time stamps of rows and holders), so the execution is one of the lock with the margin of C25, simultaneous induction.
* C95 same LTS; a row whose locker ID was replaced never comes back since locker IDs are fresh; counterexamples as executions.
* C96 a model of `Order` with wrapping 64-bit arithmetic and an arbitrary rule engine; the specification counts in unbounded integers; induction over histories.
* C97 the model of C96; validity stated for an arbitrary engine; counterexample with a minimal amount.
* C98 tables and commands above the model of C96; invariant over histories of commands, exact effect of the two commands that break it. The engine between Main and the tables is summarised (it is the subject of C01–C24, C65–C72).
* C99 the life of a process with a timer (`Model/TimerLife.lean`): restarts, Start, ticks, the iterations of a pass, arbitrary changes by others; invariants over all histories.
* C100 the bus functions of C36–C38 with contexts as association lists keyed by the second of creation of the bus (`Model/BusCtx.lean`), any number of buses and databases; counterexamples proved in general (Dispatch inside) and as an execution (same second).
* C101 options as functions folded over the default (`Model/NewEvent.lean`), composed with the bus model for the delay.
* C102 refinement: every history of `Model/Bus.lean` (operations as functions on the database) is an execution of `Model/BusLTS.lean` with the same database and log, under the strictest policy; the properties of all interleavings are then transferred.
* C103 invariant of `Model/BusLTS.lean` under the condition `Prompt` of `Spec/BusClean.lean`: event IDs a cleaning holds are older than the retention time, hence not those of unfinished dispatches or unpaired scans; `C103_calm` derives the assumption of C40.
* C104 invariant over histories (`Props/BusFifo.lean`, vocabulary `Spec/BusFifo.lean`): the handled events are a prefix of the rows of the sender in order of ID; a called record has no preceding unhandled one in the window; the example history is `Props/BusFifoDemo.lean`.
* C105 relational proof over every function of `Model/Stage.lean` (`Sync`, `Props/Answers.lean`): each part appends calls the environment answered, and a second environment that agrees on these runs identically.
* C106 `Model/RouterShared.lean`: the loop of `onEvent` with the event object as state that handlers taking it may change arbitrarily; induction over the handlers, refinement to `Model/Router` when nobody takes or changes the event.
* C107 `Model/MemNested.lean`: the memory bus with the running callback as one of the callers of Dispatch; simulation by `Model/MemBus` (so C51 carries over), invariants, exact characterisation of the standstill.
* C108 `Model/Kinds`, `Spec/Output.lean` (the command without its calls of Output): relational proof through all of Stage.Run that the output field influences nothing.
* C109 `Model/Again.lean`: Save as a step of a stage with its result object (whose error a failed Commit sets); case analysis of one Save, induction over sequences of Saves, simulation by `Model/Stage`.
* C110 `Model/SharedCmd.lean`: the agent field of the command object under interleaved accesses of runs; induction over histories from the end.
* C111 `Model/Keys.lean`: a table with an arbitrary primary key and the statements gorm makes of the actions, refined to a store of rows by key; induction over models and actions.
* C112 `Model/LockSkew.lean`: the statements of Lock/UnLock with a clock relation and a lease time per client; inductive invariant.
* C113 `Model/Depth.lean`: the recursive functions with a stack of any depth on arbitrary object graphs; returning is equivalent to accessibility of the child relation.
* C114 `Model/BusMsg.lean`: the pass of Model/Bus with the text of a failure, a database that may refuse it, and strategies that may panic. C114_same_partial by induction over the scanned tuples; C114_never_counted by an invariant over histories of passes and arbitrary other operations; C114_stored_iff with Lean's UTF-8 library.
* C115 `Model/BusMsg.lean` as for C114: `next` returns `none` for a panic.
* C116 `Model/Startup.lean`: one process with `engine` (was `NewEngine` called), the registrations so far and the tables; `tick` is `handleTransactions` with the checker of the moment (nil before `NewEngine`) followed by a pass with `onEvent` of the moment. Positive part by induction over the history (a delivery that becomes successful does so in a pass in which the callback returned nil, then C34); negative parts for all tables. Concrete cases replay the order of `example/main.go`.
* C117 `Model/Cron.lean`: polls with the registrations of their moment; timer jobs and events go through the same `onEvent`. Positive part by induction over the due jobs of a poll.
* C118 `Model/BusLTS.lean`, `Model/Timer.lean`: every step uses a reading of its process's clock, any time up to `ahead` after the true time and (bus, and timer unless `exact`) any time before it; all theorems about reachable states are for every `ahead`. The bounds are the invariants of C42, C103 and C54; sharpness by histories for every amount.
* C119 `Model/Outer.lean`, `Props/Outer.lean`: `Handle` as the calls it makes for all answers (gorm's `Transaction` written out). The stories of C92 (`Spec/Delivery.lean`) and its invariant, generalised to the two further shapes of calls; losses as theorems over all stories resp. for all writes.
* C120 `Model/Outer.lean`: the two function fields of the bus under all sequences of set-up calls and commands; induction on the calls.
* C121 `Model/Json.lean`, `Spec/Json.lean`, `Props/Json.lean`: `encoding/json` as documented, on trees, over all types built from basic types, pointers, slices, maps, structs with tags, interfaces and times; base64, time format, float rounding and case folding are parameters with their round-trip laws. Mutual induction over types and values.
* C122 `Model/Fleet.lean`, `Spec/Fleet.lean`, `Props/Fleet.lean`: product of `BusLTS` with one registry per instance; each return of the callback is what `onEvent` makes of the registrations the instance had when it was entered. Invariant: every return in the log has such an explanation; with the invariant of C40.
* C123 `Spec/Chain.lean`, `Props/Chain.lean`, `Props/ChainDemo.lean` (no new model): the story of a command (C92) is tied to a history of operations on the bus (`Behind`), whose log (C102) is tied to deliveries to handler commands (C79, C80). Effect has cause: every handler call is with a row of the table before some step, and rows of the transaction are there only after the storing step. Cause has effect: the storing step leaves a record per service, every record is in the log as stored (`recs_logged`), nothing stored is lost (C102), a successful handler committed once (C80). `Props/ChainLive.lean`: it comes about: a check-back closes the transaction (C38), a record whose handler never returned is due since its event was created (`firstDue_reachable`), and a run whose due work fits calls the handlers of all of it (C49).
* C124 `Spec/BusFifoTx.lean`, `Props/BusFifoTx.lean`, `Props/BusFifoTxDemo.lean` (no new model): the order of storing is read off the event table before and after each operation (`storedOrder`), whatever the operation. The invariant of C104 (`FInv`) is carried over operations that append rows (`Grew`: dispatch, commit, check-back). `C124_overtaken`: two concrete histories.
* C125 `Props/TimerKept.lean` (no new model; `StillPending` in `Spec/Timer.lean`): induction over all steps of the timer transition system with the invariants of C52–C56; `C64_poll` gives the calls. The counterexample for used keys is proved for all histories, not only an example.
* C126 `Props/TimerOnce.lean` (`Clients` in `Spec/TimerLife.lean`): the process model of C99 is proved to refine the transition system of C52–C56 (`follows_step`: every step of the process is matched by steps of the transition system with the same table, clock and calls), so that the invariants of C52–C55 hold of it; completeness of a pass is C99's.
* C127 `Model/Nested.lean`, `Spec/Nested.lean`, `Props/Nested.lean`: transition system with the stack of `Save` frames of every process; invariants: frames below the top have all their keys, keys rise along the stack; holder of a key = frame that obtained it. Circular wait is excluded by the order of keys; progress by induction on the distance to the largest held key.
* C128 `Model/TxRace.lean`, `Props/TxRace.lean`, `Props/TxRaceOnce.lean`: statement-level transition system of `DispatchBegin`, `Commit`, `Rollback` and `handleTransactions` (inside a database transaction with row locks, snapshot reads and undo on a crash) with a log; invariants: a locked row exists, is overdue and is locked by one check-back; the log is pairwise in order; a transaction that can still be stored is not stored yet.
* C129 `Props/InsertOrder.lean`: where the parent is new, the records of entityDiff below it come after it; the stable sort and handleEntityMove keep the order of new records; the answers of the converter are zipped with the jobs; `firsts` lists a type before another if it occurs before the first occurrence of the other.
* C130 `Model/OrderList.lean`, `Props/OrderList.lean`: the query as filter, drop and take over the rows in any order chosen per query; pages are consecutive segments of the list.
* C131 `Props/UniqueKeys.lean`: every prefix of the rows written, on a store of rows; on top of the batches of C129 and the answers of the converter.
* C132 `Model/Http.lean`, `Props/Http.lean`: the handler, the seven methods and nil pointers in requests on top of the commands and queries of C96-C98 and C130; JSON is a parameter; induction over the requests served.
* C65/C66 repository operations end to end: an invariant over every point a user program comes to (`Visits`) relates the repository's roots to the snapshots; between the call and the save the program may do anything that does not load (`NoLoad`); counterexamples by kernel evaluation of whole commands where loads intervene.

## Trusted base

1. Lean's kernel. Every theorem depends at most on the standard axioms `propext`, `Classical.choice`, `Quot.sound`
   (`#print axioms`; `vcheck` lists them). No axioms, no `native_decide`, no `bv_decide`. Concrete examples use `decide`/`decide +kernel`.
2. The faithfulness of the definitions in `lean/Verif/Model` to the cited lines of `/repo`. Nothing is extracted
   or generated from the Go source, it was read by hand.
3. The meaning given to things outside the repository: Go's semantics (slices, maps, defer/recover, channels, select), gorm's SQL for
   the calls used, MySQL's atomicity of single statements and row locks, `cron.Parse`. Where a behaviour is uncertain it is a
   parameter or a free choice (map order, oracle answers, rounding of the timer column, retry strategies, parse results).

### What is modelled

| model file | code |
|---|---|
| `Model/Err` | error values, `errors.Is`, `ErrList` (`engine.go`) |
| `Model/Snapshot` | `snapshot.go` pool, `entityDiff`, `handleEntityMove`, `recursiveDelete`; container part of `engine.go` |
| `Model/Stage` | `Stage.Save` and everything under it, repositories, `StageAgent`, `runOnLock`, transactions, hooks, events (`engine.go`) |
| `Model/Hooks` | option slices with capacity (`engine.go`, `command.go`) |
| `Model/Waiting` | any number of commands taking sorted locks |
| `Model/DBLock` | `lock/db/sql.go` |
| `Model/LockRun` | `lock/db/sql.go` (`NewDBLock`, `Run`) |
| `Model/Example` | `example/biz/sale`: domain, commands, converters, queries, events |
| `Model/NewEvent` | `event.go` (`NewDomainEvent`, options) |
| `Model/BusSeq` | `eventbus/mysql/eventbus.go`: what operations that do not overlap make observable |
| `Model/Router` | `event.go` registration, `onEvent`, `onTXChecker` |
| `Model/Bus`, `BusLTS` | `eventbus/mysql/{eventbus,po}.go` as functions, and as a transition system |
| `Model/BusCtx` | contexts of the MySQL bus (`eventbus.go:208-253`) |
| `Model/MemBus` | `eventbus/mem/eventbus.go` |
| `Model/MemNested` | `eventbus/mem/eventbus.go` with handlers that dispatch |
| `Model/Again` | `engine.go`: Save of a stage that was saved before |
| `Model/TxRace` | `eventbus/mysql/eventbus.go`: `DispatchBegin`, `Commit`, `Rollback`, `checkTX`, `handleTransactions` statement by statement, with row locks (306-349, 635-666) |
| `Model/SharedCmd` | `command.go`: SetStage, Commit, Output of one command object used by several runs |
| `Model/Depth` | `snapshot.go:192-327`, `engine.go:882-894` on graphs with cycles, with a stack of any depth |
| `Model/Keys` | `executor/mysql/executor.go`: how insert, update and delete find rows, with any primary key (gorm as documented) |
| `Model/BusMsg` | eventbus/mysql/eventbus.go 439-485, 549-633 with the text of failures and panics of the strategy; which bytes the column failed_message takes is a parameter (for C114_stored_iff: MySQL strict mode, utf8mb4, type text) | no interference during a pass, one consumer |
| `Model/Startup` | `eventbus/mysql/eventbus.go:745-777` with `event.go:80-215`, `engine.go:437-468`, `example/main.go` | start-up: ticks between `Start`, `NewEngine` and registrations |
| `Model/Outer` | `example/example_outer/outer_usage.go` 32-88, `event.go` 95-164, `engine.go` 437-512, 605-628 (who sets the functions of the bus) | gorm's `Transaction` is written out as its calls; the business code is its statements and its result |
| `Model/Json` | `event.go` 178-181, 208, 246 and the JSON columns of `eventbus/mysql/po.go`: what `encoding/json` does with the data of an event |
| `Model/Fleet` | `eventbus/mysql/eventbus.go` and `event.go` together: several instances of one service, each with registrations of its own |
| `Model/LockSkew` | `lock/db/sql.go:92-144` again, with a clock (any readings, bounded error in the theorems) and a lease time per client; no renewals |
| `Model/RouterShared` | `event.go:167-191` with handlers that change the event object |
| `Model/Timer` | `d_timer/sql/{timer,model}.go` |
| `Model/TimerLife` | `d_timer/sql/timer.go` (`NewDBTimer`, `Start`, panics) |
| `Model/Diff` | `executor/mysql/diff.go`, insert/update/delete of `executor/mysql/executor.go` |
| `Model/Children` | `findChildren` (`snapshot.go`) |
| `Model/Load` | `BuildEntity` (`engine.go:639-752`), converter registry and query of `executor/mysql/executor.go` |
| `Model/Tx` | `NewExecutor`, `Begin`, `Commit`, `RollBack`, `Exec` of `executor/mysql/executor.go` (which transaction a call is made in) |
| `Model/Redis` | `lock/redis/redis.go`; the commands `SET NX PX` and "delete if mine" of `bsm/redislock` v0.9.3 (random tokens assumed distinct; server clock; each (command, key) makes one attempt, C15) |
| `Model/Consumer` | `engine.go` `Engine.RegisterEventHandler` (515-550) |
| `Model/Cron` | `engine.go` `RegisterCronTask`, `RegisterCronTaskOfCommand` (552-584), `timer.go` `onTimer` |
| `Model/Config` | `engine.go` `Options`, `NewEngine`, `NewStage`, `WithOption`, the `With…` options (291-484, 606-627) |

### Assumptions made inside the models

* Entity graphs are acyclic: exactly those on which the code comes back (C113).
* External calls (executor, converter, locker, bus, hooks) are answered by an arbitrary oracle; they do not change the entities unless the
  model says so. User code in `Main` is an arbitrary interaction tree but does not recover a panic raised by an engine call.
* Clocks of several hosts: in the transition systems of the bus and the timer every step uses a reading up to `ahead` after the true time (`ahead` is arbitrary; 0 means no clock is fast) and any amount before it (C118; in the timer unless `exact`);
  in C112 every client of the database lock has its own clock. The other lock models (C25–C28) use one clock. C25's positive result with renewals assumes a margin of at least the
  longest delay between reading the row and checking the time.
* C24 is about commands not started from within commands holding locks (nested commands can deadlock, shown).
* Bus transition system: policies (`Pol`) restrict which steps are allowed. `calm`: no cleaning between the two reads of a scan; `fresh`: no
  worker acts on a copy of a row that changed meanwhile; `lossless`: no crash between the return of a handler and the commit of its outcome;
  `noExpire`: no manual expiry. Each theorem names the policies it needs; counterexamples show what happens without.
  `InOrder` (C44) lists the circumstances of ordered delivery.
* Timer: `Cfg.round` is what the `datetime` column makes of a time, `Cfg.parse` what `cron.Parse(..).Next` does. `Satisfiable` excludes
  expressions that never match.
* Strings, payloads and models are opaque values; `convert` is not modelled; the JSON encoding of event data is modelled in `Model/Json` only, as documented by `encoding/json`; other models treat payloads as opaque.

* Model diff: Go values are trees, everything that is no struct (or pointer to one) is an opaque leaf; what reflection says about leaves is a parameter
  (`Go`); gorm's field lookup is a parameter (`look`). Models must not share mutable memory with the entities (an in-place change would be in the snapshot too).

* Clocks: a process reads the clock before it sends a statement; in the bus and timer transition systems the time used by a step is any
  reading `t0 ≤ now + ahead`, in the lock models `t0 ≤ now`. Locking a row, checking its state and calling the handler (`eventbus.go:520-575`) is one step of
  `Model/BusLTS`: while the row lock is held no other process can lock this row, and after the check the handler is called without reading the tables again. So the
  model's "called" is at the moment of the check, the real call a little later: the interval in which the model says an event is being handled contains the real
  one, and what the check saw was there before the real call. Each other statement of the step commutes with the statements of other processes in between.
  What is *not* protected by the row lock (the copy scanned before, cleaning, expiry, registration) is interleaved freely.
* DB lock: "rows affected" is the number of rows the `WHERE` clause matched (MySQL reports changed rows by default, which differs only when an update
  writes the values already there); `datetime` rounding of lock times is not modelled; gorm without `TranslateError` reports a duplicate key as "another error",
  which the model covers by letting `create` fail with any error.
* Memory bus and router: a handler may change the event object it is given by pointer (`Model/RouterShared`), elsewhere events are values.

### Not modelled

logging, metrics, `stageLogger`, JSON encoding of entities (that of events: `Model/Json`), `testsuite`, gorm itself, SQL text,
connection failures other than "statement failed" or "process died", clock skew between hosts in the lock models other than C112, data races inside one process except
where a transition system is given (option slices, memory bus), goroutine start-up (ticker loops are modelled by their rounds, `Model/BusLife`, `Model/TimerLife`).
