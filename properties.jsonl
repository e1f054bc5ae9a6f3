{"id": "C01", "title": "Change detection is sound and complete", "statement": "When a stage saves, the entities handed to the executor are exactly the difference between the aggregate as last loaded/saved and the aggregate now: an entity sits in an insert iff it is now under a parent (and field) that did not hold it at load time, in an update iff it is still where it was and was marked Dirty, in a delete iff a parent that is still in the aggregate (and still has the field) no longer holds it. Nothing else is reported and nothing is reported twice for one parent and field.", "quantifier": "all entity graphs (any depth, width, sharing), all earlier snapshots, all dirty markings", "why_tests_cant": "the space of before/after graph pairs is infinite; tests try a handful of shapes of depth two", "anchors": ["snapshot.go:entityDiff", "snapshot.go:findChildren", "snapshot.go:simpleSet", "engine.go:getEntityChanged"]}
{"id": "C02", "title": "Saving twice without changes writes nothing the second time", "statement": "After a successful Repository.Save / Command.Commit, an immediately following save (including the implicit one at the end of Main) finds no change, executes no insert, update or delete and runs no entity hook, whatever the aggregate looks like.", "quantifier": "all aggregates and all histories leading to the first save", "why_tests_cant": "needs every graph and every history; idempotence over histories cannot be sampled", "anchors": ["engine.go:Stage.commit", "engine.go:Stage.flush", "engine.go:Stage.unDirty", "engine.go:Stage.persist", "snapshot.go:entityDiff"]}
{"id": "C03", "title": "A successful save makes the store mirror the aggregate", "statement": "If the store rows of the tracked entities equal their snapshots, then after a successful save over an executor that applies inserts, updates and deletes literally, every row is what the aggregate says: new, moved and dirty entities have their current model (with the current parent ID), removed entities have no row, every other row is untouched.", "quantifier": "all aggregates with distinct row keys, all change sets, all initial stores", "why_tests_cant": "end-to-end refinement over unbounded graphs and stores", "anchors": ["engine.go:Stage.persist", "engine.go:Stage.makeActions", "engine.go:Stage.putNewID", "snapshot.go:entityDiff", "snapshot.go:handleEntityMove", "executor.go:Action"]}
{"id": "C04", "title": "Moving an entity between parents is one update", "statement": "Removing a persisted entity from one parent and adding it under another in the same save produces exactly one update of that entity, carried out with the new parent, and neither an insert nor a delete, for any number of entities moved at once.", "quantifier": "all change lists with any number of moved entities in any position", "why_tests_cant": "the fault depends on the position of the moved entities inside the source list (an in-place slice edit during iteration); tests move a single entity", "anchors": ["snapshot.go:handleEntityMove", "snapshot.go:entityChanged.Remove", "engine.go:getEntityChanged"]}
{"id": "C05", "title": "An entity reachable in two changed places is rejected before any write", "statement": "If the same entity object appears in two changes of one save other than the move pattern (added in two places, removed from two places, dirty in two places, added and dirty), the save fails with an error and no write, hook, ID or event is issued by that save.", "quantifier": "all change lists", "why_tests_cant": "arbitrary combinations of aliasing between parents", "anchors": ["snapshot.go:handleEntityMove", "engine.go:Stage.persist"]}
{"id": "C06", "title": "IDs: new entities get one, existing IDs are never changed, children see their parent ID", "statement": "By the time any write of a save is executed, every entity being inserted has an ID; an entity that already had an ID keeps it; entities not being inserted keep theirs; and every model is built after all IDs of that save have been assigned, so a child model never sees an unassigned parent ID. With a generator that never repeats and never collides, the generated IDs are pairwise distinct.", "quantifier": "all aggregates, all ID generators including failing ones", "why_tests_cant": "depends on creation order over all tree shapes and partial ID assignments", "anchors": ["engine.go:Stage.putNewID", "engine.go:Stage.persist", "engine.go:Stage.makeActions"]}
{"id": "C07", "title": "Write batches are complete, ordered and aligned", "statement": "Every (entity, change) pair of a save whose entity type is registered appears as exactly one model in exactly one action of the matching operation, models of one action share operation and type and keep change order, all inserts precede all updates which precede all deletes, no action is empty, and for updates PrevModels has the same length as Models with the i-th entry being the i-th entity snapshot; inserts and deletes carry no PrevModels.", "quantifier": "all change lists and all assignments of model types", "why_tests_cant": "grouping over two maps with arbitrary interleavings of types", "anchors": ["engine.go:Stage.makeActions", "engine.go:changeType2OP"]}
{"id": "C08", "title": "Recursive delete removes every descendant still attached", "statement": "With WithRecursiveDelete, removing an entity deletes the entity and every entity still reachable below it, at any depth, regardless of map iteration order; every such descendant gets its delete exactly as often as it is reachable. Descendants detached from the removed entity in the same session must be deleted too.", "quantifier": "all subtrees of any depth and branching, all map iteration orders", "why_tests_cant": "unbounded depth; the interaction of detaching a child and deleting its parent is not in any test", "anchors": ["snapshot.go:recursiveDelete", "snapshot.go:walk", "engine.go:getEntityChanged"]}
{"id": "C09", "title": "Without recursive delete only the removed entity itself is deleted", "statement": "Without WithRecursiveDelete, removing an entity issues a delete for that entity and none for entities below it.", "quantifier": "all graphs and snapshots", "why_tests_cant": "negative claim over all graphs", "anchors": ["snapshot.go:entityDiff", "engine.go:getEntityChanged"]}
{"id": "C10", "title": "Snapshots are isolated from later edits and are taken once", "statement": "What a save compares against is the child lists and models as they were when the entity was first loaded (or at the last save): later edits of the aggregate do not leak into the snapshot, and loading further roots does not refresh the snapshot of entities already tracked.", "quantifier": "all sequences of loads and edits", "why_tests_cant": "aliasing between the live lists and the recorded lists only shows up for particular edit histories", "anchors": ["engine.go:Stage.updateSnapshot", "engine.go:childrenSnapshot", "engine.go:Repository.Get", "engine.go:Repository.CustomGet"]}
{"id": "C11", "title": "An update always has a previous model", "statement": "Whenever a save issues an update for an entity, a snapshot of that entity exists, so a save never crashes looking up the previous model, as long as no snapshot step failed before.", "quantifier": "all histories of loads, edits, moves and saves", "why_tests_cant": "reachability invariant over operation histories", "anchors": ["engine.go:Stage.makeActions", "engine.go:Stage.updateSnapshot", "snapshot.go:handleEntityMove"]}
{"id": "C12", "title": "Repository misuse always fails the command", "statement": "Adding a root that is already tracked, adding the same root twice, or removing a root that cannot be removed makes every later Repository.Save and the final save return an error; with transactions enabled the transaction is rolled back, never committed, whatever else the command did.", "quantifier": "all command bodies containing a misuse, at any position", "why_tests_cant": "all programs and positions", "anchors": ["engine.go:Repository.Add", "engine.go:Repository.Remove", "engine.go:Repository.Save", "engine.go:Stage.do"]}
{"id": "C13", "title": "RootContainer misuse in Act fails the command", "statement": "In an ICommand, calling container.Add twice with the same root or container.Remove with an unknown root makes the command fail.", "quantifier": "all Act bodies", "why_tests_cant": "the container is passed by value; whether errors are seen depends on copies, not on any single call", "anchors": ["engine.go:Stage.runCommand", "engine.go:RootContainer.Add", "engine.go:RootContainer.Remove"]}
{"id": "C14", "title": "Every begun transaction is ended exactly once", "statement": "For every command, if the executor began a transaction then exactly one Commit or exactly one RollBack is issued afterwards, also when user code, the executor or the event bus panics; no transaction is ended that was not begun.", "quantifier": "all commands, all responses (success, error, panic) of every external call", "why_tests_cant": "every failure point of every external call", "anchors": ["engine.go:Stage.runWithTransaction", "engine.go:Stage.Save"]}
{"id": "C15", "title": "Commit happens iff everything before it succeeded", "statement": "Commit is issued iff Main returned nil, no repository misuse was recorded, every write succeeded, event persistence succeeded and event dispatch succeeded; in every other case (error, ErrBreak, panic) RollBack is issued instead.", "quantifier": "all commands and all responses of every external call", "why_tests_cant": "conjunction over all failure points", "anchors": ["engine.go:Stage.do", "engine.go:Stage.runWithTransaction"]}
{"id": "C16", "title": "All-or-nothing persistence at every crash point", "statement": "With transactions enabled, at every point where the process may die, the durable store is either the store before the command or the store with all writes of the command applied; in particular all writes lie strictly between Begin and Commit.", "quantifier": "all commands, all responses, all crash points (prefixes of the execution)", "why_tests_cant": "crash points are prefixes of all executions", "anchors": ["engine.go:Stage.runWithTransaction", "engine.go:Stage.exec", "engine.go:Stage.do", "executor/mysql/executor.go:Executor.Exec"]}
{"id": "C17", "title": "A failed Commit is reported and withholds everything after it", "statement": "If Commit fails the result carries that error, no PostSave hook runs and the transactional events are neither committed nor rolled back on the bus (they stay for the check-back).", "quantifier": "all commands and responses", "why_tests_cant": "requires failing the last step of every possible run", "anchors": ["engine.go:Stage.runWithTransaction", "engine.go:Stage.Save"]}
{"id": "C18", "title": "ErrBreak rolls back silently", "statement": "If Main (or Init) ends with ErrBreak (wrapped or not) the result has no error and Break set, and nothing the command wrote is committed.", "quantifier": "all commands and wrapping chains", "why_tests_cant": "all programs, all wrappings", "anchors": ["engine.go:ResultErrOrBreak", "engine.go:Stage.do", "engine.go:Stage.runWithTransaction", "engine.go:Stage.Run"]}
{"id": "C19", "title": "PostSave hooks run exactly once, in order, only without error, after the transaction and the locks are finished", "statement": "If the result has no error every registered PostSave hook is called exactly once, engine hooks before the command hook, after the transaction ended and all locks were released; if the result has an error none is called.", "quantifier": "all commands, hook lists and responses", "why_tests_cant": "ordering over all executions", "anchors": ["engine.go:Stage.Save", "engine.go:PostSaveOption.ApplyToOptions"]}
{"id": "C20", "title": "PostSave hooks of concurrent or nested commands do not mix", "statement": "Each command run on an engine calls the engine hooks and its own PostSave hook, never the hook of another command, however commands on the same engine overlap.", "quantifier": "all engine hook counts and all interleavings of commands", "why_tests_cant": "depends on spare capacity of a shared slice, i.e. on the number of registered hooks and on interleaving", "anchors": ["engine.go:PostSaveOption.ApplyToOptions", "engine.go:Engine.NewStage", "engine.go:Stage.WithOption"]}
{"id": "C21", "title": "Dry run has no external effect", "statement": "With WithDryRun a command executes no insert, update or delete, persists no event and dispatches no event, whatever the command does.", "quantifier": "all commands and responses", "why_tests_cant": "negative claim over all programs", "anchors": ["engine.go:Stage.exec", "engine.go:Stage.dispatchEvents"]}
{"id": "C22", "title": "Lock keys are taken in one global order, duplicates rejected", "statement": "Whatever order Init returns the keys in, locks are requested in ascending key order; if a key is repeated the command fails before requesting any lock or transaction.", "quantifier": "all key lists", "why_tests_cant": "all permutations and duplicates", "anchors": ["engine.go:Stage.runOnLock", "engine.go:Stage.Save"]}
{"id": "C23", "title": "Locks are held for the whole command and always released", "statement": "The transaction begins only after all requested locks are held and ends before any is released; every lock obtained is released exactly once, also on errors and panics; if a lock cannot be obtained, no user code runs and those already obtained are released.", "quantifier": "all commands, key lists and responses", "why_tests_cant": "every failure point times every key list", "anchors": ["engine.go:Stage.runOnLock", "engine.go:Stage.runWithTransaction", "engine.go:Stage.Save"]}
{"id": "C24", "title": "Concurrent commands cannot deadlock on their lock keys", "statement": "For any set of commands, none of them run from inside another one that holds locks, that wait for each other's locks, some command is always able to proceed; there is no circular wait.", "quantifier": "any number of concurrent commands, any key sets, any reachable state", "why_tests_cant": "all interleavings of any number of processes", "anchors": ["engine.go:Stage.runOnLock"]}
{"id": "C25", "title": "DB lock: mutual exclusion within the lease", "statement": "At any time at most one holder of a key obtained from DBLock is within its lease (ttl since it obtained or last renewed the lock), for any interleaving of the separate SQL statements of any number of clients, provided renewals are made before the lease ran out.", "quantifier": "all interleavings of reads, inserts, compare-and-swap updates, renewals, unlocks and time steps of any number of clients", "why_tests_cant": "interleavings between the SELECT and the following INSERT/UPDATE", "anchors": ["lock/db/sql.go:DBLock.lock", "lock/db/sql.go:DBLock.update", "lock/db/sql.go:DBLock.UnLock"]}
{"id": "C26", "title": "DB lock: a client never releases or extends somebody else lock", "statement": "UnLock and renewal by a client whose lock was taken over change nothing and report an error.", "quantifier": "all histories", "why_tests_cant": "needs takeover histories", "anchors": ["lock/db/sql.go:DBLock.UnLock", "lock/db/sql.go:DBLock.update"]}
{"id": "C27", "title": "DB lock: a successful renewal keeps the lock", "statement": "After a successful renewal no other client obtains the key for ttl.", "quantifier": "all interleavings", "why_tests_cant": "race between another client read and its compare-and-swap", "anchors": ["lock/db/sql.go:DBLock.lock", "lock/db/sql.go:DBLock.update"]}
{"id": "C28", "title": "DB lock: bounded retry, only on contention", "statement": "Lock makes at most five attempts, retries only when the key is locked by somebody else, returns the first success, and with Retry disabled makes exactly one attempt; a free or expired key is obtained on the first attempt when nobody interferes.", "quantifier": "all sequences of attempt outcomes", "why_tests_cant": "all outcome sequences", "anchors": ["lock/db/sql.go:DBLock.Lock", "lock/db/sql.go:DBLock.lock"]}
{"id": "C29", "title": "Each save dispatches every pending event exactly once in creation order", "statement": "The final save of a stage dispatches every event of every entity in the aggregate and of every entity removed during the stage (including their descendants), each exactly once, ordered by creation time then ID, and the result does not depend on map iteration order.", "quantifier": "all aggregates, event sets and map iteration orders", "why_tests_cant": "map iteration order and graph shapes are unbounded", "anchors": ["engine.go:Stage.collectEvents", "engine.go:Stage.recycle", "engine.go:EntityContainer.Remove", "snapshot.go:walk"]}
{"id": "C30", "title": "Events are dispatched only after all writes succeeded", "statement": "If any hook, ID generation, model conversion or write of the final save fails, no event is dispatched or persisted; when events are dispatched, all writes have been executed before.", "quantifier": "all commands and responses", "why_tests_cant": "every failure point", "anchors": ["engine.go:Stage.do", "engine.go:Stage.persist", "engine.go:Stage.dispatchEvents"]}
{"id": "C31", "title": "Transactional events follow the database transaction", "statement": "On a bus supporting transactions (whose DispatchBegin returns a context when it succeeds), transactional events are handed over uncommitted before the database commit, are committed on the bus only after the database commit succeeded (and then always), and are rolled back on the bus when the command ends with an error or break before the database commit was attempted.", "quantifier": "all commands, event mixes and responses", "why_tests_cant": "every failure point", "anchors": ["engine.go:Stage.dispatchEvents", "engine.go:Stage.runWithTransaction"]}
{"id": "C32", "title": "Normal events are not visible when the command does not commit", "statement": "If the database transaction of a command does not commit, none of its (non transactional) events has been handed to the bus.", "quantifier": "all commands and responses", "why_tests_cant": "requires the commit itself to fail after dispatch", "anchors": ["engine.go:Stage.do", "engine.go:Stage.dispatchEvents", "engine.go:Stage.runWithTransaction"]}
{"id": "C33", "title": "Persisted events are exactly the dispatched events", "statement": "With WithEventPersist, one insert holding exactly one model per event, in dispatch order, is executed after the entity writes and inside the same transaction, before dispatch.", "quantifier": "all commands and event sets", "why_tests_cant": "all event sets and failure points", "anchors": ["engine.go:Stage.makeEventPersistAction", "engine.go:Stage.do"]}
{"id": "C34", "title": "Event routing: every handler in order until the first failure", "statement": "An event is offered to all handlers registered for its type in registration order; the first error (or undecodable payload) stops the rest and is returned; the callback succeeds iff all succeed; handlers of other types are never called.", "quantifier": "all registries of handlers of the documented form func(ctx context.Context, evt *T) error, all events and handler outcomes", "why_tests_cant": "all registries and outcome sequences", "anchors": ["event.go:RegisterEventHandler", "event.go:onEvent"]}
{"id": "C35", "title": "Transaction check-back: unknown means rollback", "statement": "The check-back answer for an event is the answer of the one checker registered for its type; without a checker or with an undecodable payload it is rollback; a second registration for a type is refused and keeps the first.", "quantifier": "all registries and events", "why_tests_cant": "all registration sequences", "anchors": ["event.go:RegisterEventTXChecker", "event.go:onTXChecker"]}
{"id": "C36", "title": "MySQL bus: each event is recorded once for every registered service", "statement": "A successful Dispatch stores every event once and creates exactly one pending delivery record per (registered service, event), and changes nothing else.", "quantifier": "all databases, service sets and event batches", "why_tests_cant": "all sizes of batches and services", "anchors": ["eventbus/mysql/eventbus.go:EventBus.Dispatch", "eventbus/mysql/eventbus.go:EventBus.listService"]}
{"id": "C37", "title": "MySQL bus: Dispatch is atomic at every crash point", "statement": "If the process dies or a statement fails during Dispatch then either all rows (events and delivery records) exist or none.", "quantifier": "all crash points and failing statements", "why_tests_cant": "crash points between autocommitted statements", "anchors": ["eventbus/mysql/eventbus.go:EventBus.Dispatch", "eventbus/mysql/eventbus.go:EventBus.getDB"]}
{"id": "C38", "title": "MySQL bus: transactional events are delivered iff committed, at most once", "statement": "Events handed over by DispatchBegin are invisible to consumers until Commit; a Rollback before Commit means they never become visible; repeating Commit, or a check-back after Commit, does not store them again; the check-back after the timeout commits, rolls back or leaves the transaction as the checker says.", "quantifier": "all histories of begin, commit, rollback, check-back, clean and crashes", "why_tests_cant": "histories with crashes between the statements of Commit", "anchors": ["eventbus/mysql/eventbus.go:EventBus.DispatchBegin", "eventbus/mysql/eventbus.go:EventBus.Commit", "eventbus/mysql/eventbus.go:EventBus.Rollback", "eventbus/mysql/eventbus.go:EventBus.checkTX", "eventbus/mysql/eventbus.go:EventBus.handleTransactions"]}
{"id": "C39", "title": "MySQL bus: a scan returns the right work", "statement": "A scan returns, in ascending event order, the first LimitPerRun pending and due delivery records of the own service whose event is inside the scan window, each paired with its own event; the offset shortcut never skips a record.", "quantifier": "all database states with referential integrity", "why_tests_cant": "the pairing is by list index and the offset compares different id spaces: failures need unusual table contents", "anchors": ["eventbus/mysql/eventbus.go:EventBus.getScanEvents", "eventbus/mysql/eventbus.go:EventBus.handleEvents"]}
{"id": "C40", "title": "MySQL bus: no event is lost", "statement": "For every service registered when the event was dispatched, in every reachable state the delivery record exists and is pending, or the handler ran successfully at least once, or it failed as often as the retry strategy allows (or was manually expired); only a successful handling lets cleaning remove the record.", "quantifier": "all histories of dispatches, scans, handlings (stale or not), cleanings and manual expiry by any number of workers", "why_tests_cant": "all histories of concurrent workers", "anchors": ["eventbus/mysql/eventbus.go:EventBus.handleEvent", "eventbus/mysql/eventbus.go:EventBus.doRetryStrategy", "eventbus/mysql/eventbus.go:EventBus.cleanEvents"]}
{"id": "C41", "title": "MySQL bus: exact retry count", "statement": "A handler that keeps failing is called exactly Limit+2 times with LimitRetry/IntervalRetry (Limit >= -1) and len(Intervals)+1 times with CustomRetry before the record is marked failed, and never again afterwards, when workers do not overlap.", "quantifier": "all limits, all histories of failing and succeeding calls", "why_tests_cant": "all limits and histories; documentation and code differ by one", "anchors": ["eventbus/mysql/eventbus.go:LimitRetry.Next", "eventbus/mysql/eventbus.go:IntervalRetry.Next", "eventbus/mysql/eventbus.go:CustomRetry.Next", "eventbus/mysql/eventbus.go:EventBus.doRetryStrategy", "eventbus/mysql/eventbus.go:EventBus.handleEvent"]}
{"id": "C42", "title": "MySQL bus: back-off is respected", "statement": "After a failed call the same record is not scanned before now + interval (fixed or per attempt), and a pending record is never called before its next time.", "quantifier": "all strategies and histories", "why_tests_cant": "all time lines", "anchors": ["eventbus/mysql/eventbus.go:IntervalRetry.Next", "eventbus/mysql/eventbus.go:CustomRetry.Next", "eventbus/mysql/eventbus.go:EventBus.doRetryStrategy", "eventbus/mysql/eventbus.go:EventBus.getScanEvents"]}
{"id": "C43", "title": "MySQL bus: a panicking handler counts as a failing handler", "statement": "A panic inside a handler is contained and leads to the same retry bookkeeping as an error; other records are unaffected.", "quantifier": "all states and outcomes", "why_tests_cant": "all states", "anchors": ["eventbus/mysql/eventbus.go:EventBus.handleEvent"]}
{"id": "C44", "title": "MySQL bus: FIFO events wait for their predecessor", "statement": "The handler of a FIFO event is called only when the preceding event of the same sender (latest earlier one) is, for this service, successfully handled or expired, or is outside the scan window or has no delivery record; an event with empty sender is never called. If all events of a sender are FIFO and workers do not overlap, events of a sender are successfully handled in order, with no gaps.", "quantifier": "all histories, any number of senders, events and failures", "why_tests_cant": "order over all histories of failures and retries", "anchors": ["eventbus/mysql/eventbus.go:EventBus.checkPrecedingEvent", "eventbus/mysql/eventbus.go:EventBus.handleEvent"]}
{"id": "C45", "title": "MySQL bus: LaxFIFO events wait until the predecessor is no longer pending", "statement": "The handler of a LaxFIFO event is called only when the preceding event of the same sender is no longer pending for this service (handled, failed or expired), or out of window, or has no record.", "quantifier": "all database states", "why_tests_cant": "all states", "anchors": ["eventbus/mysql/eventbus.go:EventBus.checkPrecedingEvent"]}
{"id": "C46", "title": "MySQL bus: a successfully handled event is not handled again", "statement": "Once a handling of an event by a service has been committed as success, no worker of this service calls the handler for it again.", "quantifier": "all interleavings of scans and handlings by any number of workers", "why_tests_cant": "needs two overlapping workers with a stale scan", "anchors": ["eventbus/mysql/eventbus.go:EventBus.handleEvent", "eventbus/mysql/eventbus.go:EventBus.getScanEvents", "eventbus/mysql/eventbus.go:EventBus.onPostSave"]}
{"id": "C47", "title": "MySQL bus: services are isolated", "statement": "Scanning, handling and cleaning by one service never change the delivery records of another service, and an event row is removed only when no service references it any more.", "quantifier": "all database states and operations", "why_tests_cant": "all states", "anchors": ["eventbus/mysql/eventbus.go:EventBus.handleEvent", "eventbus/mysql/eventbus.go:EventBus.cleanEvents"]}
{"id": "C48", "title": "MySQL bus: cleaning removes only finished old records", "statement": "Cleaning removes exactly the own service records with status success created before now minus retention and exactly those of their events no record references any more; pending, failed and younger records survive.", "quantifier": "all database states, any batch split", "why_tests_cant": "batching by ten over arbitrary row sets", "anchors": ["eventbus/mysql/eventbus.go:EventBus.cleanEvents"]}
{"id": "C49", "title": "MySQL bus: a failing sender does not stop other senders", "statement": "Failing or blocked events never prevent pending due events of other senders from being handled eventually.", "quantifier": "all backlogs and limits", "why_tests_cant": "needs a backlog larger than LimitPerRun", "anchors": ["eventbus/mysql/eventbus.go:EventBus.getScanEvents", "eventbus/mysql/eventbus.go:EventBus.checkPrecedingEvent"]}
{"id": "C50", "title": "MySQL bus: progress", "statement": "If handlers succeed, each non overlapping run turns the first min(LimitPerRun, n) of the n pending due records in the window into success, so n records are finished after ceil(n/LimitPerRun) runs.", "quantifier": "all backlogs of unordered events and limits", "why_tests_cant": "all backlog sizes", "anchors": ["eventbus/mysql/eventbus.go:EventBus.handleEvents", "eventbus/mysql/eventbus.go:EventBus.dispatchEvents"]}
{"id": "C51", "title": "Memory bus: order, capacity, exactly once", "statement": "Events are passed to the callback in the order they entered the channel, each exactly once (errors are not retried), at most capacity are buffered, every sender events keep their order, under any interleaving of senders and the consumer.", "quantifier": "all interleavings, capacities and batches", "why_tests_cant": "all interleavings", "anchors": ["eventbus/mem/eventbus.go:MemoryEventBus.Dispatch", "eventbus/mem/eventbus.go:MemoryEventBus.Start"]}
{"id": "C52", "title": "Timer: never early, only pending, only own service", "statement": "A timer callback is called for a job only if the job is pending, belongs to the service and its time has come at the moment of the call, for any interleaving of several timer instances.", "quantifier": "all interleavings of instances, registrations and cancellations", "why_tests_cant": "interleavings between the poll and the row lock", "anchors": ["d_timer/sql/timer.go:DBTimer.handleJobs"]}
{"id": "C53", "title": "Timer: a one-shot job fires at most once", "statement": "A RunOnce job whose save succeeded is never called again by any instance; if the save fails or the process dies during the call it stays pending and is called again.", "quantifier": "all interleavings and crash points", "why_tests_cant": "interleavings and crashes", "anchors": ["d_timer/sql/timer.go:DBTimer.handleJobs", "d_timer/sql/model.go:TimerJob.Next", "d_timer/sql/model.go:TimerJob.Close"]}
{"id": "C54", "title": "Timer: a completed call of a cron job is not repeated for the same scheduled time", "statement": "For a schedule that has further times, after each completed call the next time is the first schedule time strictly after now, missed times collapse into one call, and a call that follows a completed call of the same job, by any instances, is for a later schedule time. A call that does not complete is repeated for the same time.", "quantifier": "all schedules, clocks and instances", "why_tests_cant": "all schedules and interleavings", "anchors": ["d_timer/sql/model.go:TimerJob.Reset", "d_timer/sql/model.go:TimerJob.Next", "d_timer/sql/timer.go:DBTimer.handleJobs"]}
{"id": "C55", "title": "Timer: registering again does not disturb an existing job", "statement": "RunCron/RunOnce for a key the service already has returns success and changes nothing; for a new key creates one pending job; an overdue RunOnce or an invalid cron expression is refused and creates nothing.", "quantifier": "all tables and calls", "why_tests_cant": "all registration histories", "anchors": ["d_timer/sql/timer.go:DBTimer.RunCron", "d_timer/sql/timer.go:DBTimer.RunOnce", "d_timer/sql/timer.go:DBTimer.run"]}
{"id": "C56", "title": "Timer: cancel affects only the own service job", "statement": "Cancel(key) removes the job of this service and never a job of another service.", "quantifier": "all tables and keys", "why_tests_cant": "cross service key collisions", "anchors": ["d_timer/sql/timer.go:DBTimer.Cancel"]}
{"id": "C57", "title": "Model diff misses no changed column", "statement": "For an updated entity, every field in which the current model differs from the snapshot model is included in the update, including nested embedded structs.", "quantifier": "all pairs of model values of one type", "why_tests_cant": "all values of all struct types", "anchors": ["executor/mysql/diff.go:DiffModel", "executor/mysql/diff.go:diffValue", "executor/mysql/diff.go:diffStruct"]}
{"id": "C58", "title": "Unchanged models cause no update; untouched columns are preserved", "statement": "An update of an entity whose model equals its snapshot issues no SQL; otherwise only the listed columns are written, so a concurrent change of another column of the same row survives, and after the update every column changed by this command has its current value.", "quantifier": "all rows, models and concurrent writes", "why_tests_cant": "all pairs of concurrent writers", "anchors": ["executor/mysql/executor.go:opMap", "executor/mysql/diff.go:DiffModel"]}
{"id": "C59", "title": "Child discovery finds every exported entity field", "statement": "Unless the entity defines GetChildren, every exported field that is an entity, a slice of entities or a map of entities is a child group, also when nil or empty, so that emptying it is seen as deletion; unexported and other fields are ignored; all elements are included.", "quantifier": "all struct layouts and field values", "why_tests_cant": "all struct shapes", "anchors": ["snapshot.go:findChildren"]}
{"id": "C60", "title": "Entity hooks run around the writes exactly once per change", "statement": "A successful save calls, for every changed entity, its Before hook exactly once before the first write and its After hook exactly once after the last write, of the kind matching the change; with recursive delete a delete hook is called once for every place at which the entity hangs below what was removed. A failing Before hook prevents all writes of that save; a failing After hook fails the save.", "quantifier": "all change sets and hook outcomes", "why_tests_cant": "all failure positions", "anchors": ["engine.go:Stage.persist", "engine.go:execHook"]}
{"id": "C61", "title": "Lock contention is recognisable", "statement": "When a command fails because a key is locked, errors.Is(result.Error, ErrEntityLocked) holds.", "quantifier": "all commands and lockers", "why_tests_cant": "depends on error wrapping along every path", "anchors": ["engine.go:Stage.runOnLock", "engine.go:ErrList", "engine.go:ResultErrors"]}
{"id": "C62", "title": "Unregistered entity types are skipped, not fatal", "statement": "Entities whose type has no registered model (error equal to or wrapping ErrEntityNotRegister) are tracked and saved without writes, and do not make loading or saving fail.", "quantifier": "all graphs and converters", "why_tests_cant": "the two checks differ in argument order, visible only with wrapped errors", "anchors": ["engine.go:Stage.updateSnapshot", "engine.go:Stage.makeActions"]}
{"id": "C63", "title": "Timer: calls of one job never overlap", "statement": "The callback is never called for a job while a call for the same job, by any instance of any process, is still running: the earlier one has returned or its process has died.", "quantifier": "all interleavings of instances and crashes", "why_tests_cant": "interleavings of several processes", "anchors": ["d_timer/sql/timer.go:DBTimer.handleJobs"]}
{"id": "C64", "title": "Timer: a poll serves every due job once", "statement": "A poll that is not interfered with calls the callback exactly once for each job of the service that is due and for no other, leaves all other rows alone, and afterwards nothing is due; a due job nobody is running can always be called.", "quantifier": "all tables, times and schedules", "why_tests_cant": "all tables and schedules", "anchors": ["d_timer/sql/timer.go:DBTimer.handleJobs", "d_timer/sql/model.go:TimerJob.Next"]}
{"id": "C65", "title": "What is added is inserted", "statement": "When a save of the command succeeds, every root passed to Repository.Add before it (and not removed again), and every entity that is in the aggregate and was neither loaded nor saved before, has been handed to the executor as an insert below its parent.", "quantifier": "all histories of repository calls and edits before the save, all entity graphs, all executors", "why_tests_cant": "every order of Get/Add/Remove/CustomGet/Save and every edit in between", "anchors": ["engine.go:Repository.Add", "engine.go:Repository.Get", "engine.go:Stage.updateSnapshot", "engine.go:Stage.persist"]}
{"id": "C66", "title": "What is removed is deleted", "statement": "When a save of the command succeeds, every root passed to Repository.Remove before it that exists in the store (loaded before or unknown to the repository) has been handed to the executor as a delete, unless user code put it back; a root that was only added in this command and removed again is not written at all.", "quantifier": "all histories of repository calls and edits before the save, all entity graphs, all executors", "why_tests_cant": "every order of Get/Add/Remove/CustomGet/Save and every edit in between", "anchors": ["engine.go:Repository.Remove", "engine.go:RootContainer.Remove", "engine.go:Stage.updateSnapshot", "engine.go:Stage.persist"]}
{"id": "C67", "title": "Loading gives exactly the rows", "statement": "When Stage.BuildEntity (hence Repository.Get) succeeds, the parent holds the row its query selects; every slice argument has been extended by exactly one new entity per row its query selects (none missing, none twice, no aliasing); a pointer argument points to the entity of such a row or is nil if there is none; an entity argument holds such a row or is unchanged if there is none; nothing else changes. It fails with ErrEntityNotFound exactly when the parent's row does not exist, and then nothing has changed. Without an ID of the parent, or with a parent of an unregistered type (then with ErrEntityNotRegister), it fails, asks the database nothing and changes nothing.", "quantifier": "all stores, numbers of rows, row orders, converters, arguments", "why_tests_cant": "all contents of the database and all argument lists", "anchors": ["engine.go:Stage.BuildEntity", "engine.go:Stage.buildEntity", "engine.go:Stage.buildEntitySliceByParent", "executor/mysql/executor.go:opMap"]}
{"id": "C68", "title": "What was saved is what is loaded", "statement": "After a successful save, loading an entity of the aggregate by its ID (from the resulting store, in any later command) finds it with the saved state, and loading it with a slice of children yields exactly its children of that table, each once, with the saved identifier and data.", "quantifier": "all aggregates, edits, stores and converters that query by ID and foreign key and restore what they stored", "why_tests_cant": "all aggregates and histories", "anchors": ["engine.go:Stage.persist", "engine.go:Stage.BuildEntity", "executor/mysql/executor.go:Executor.Exec"]}
{"id": "C69", "title": "Commands sharing a lock key run one after the other", "statement": "If the locker is exclusive, two commands asking for a common lock key never overlap: from Begin to Commit/RollBack (user code, reads, writes, event dispatch included) everything one does lies before or after everything the other does. PostSave hooks are outside the lock.", "quantifier": "every number of commands, every key set, every interleaving, every failure, every moment", "why_tests_cant": "needs all interleavings of all commands", "anchors": ["engine.go runOnLock", "engine.go Save"]}
{"id": "C70", "title": "MySQL executor: a transaction that is not committed never happened", "statement": "If a transaction begun with the executor is rolled back, abandoned or fails to commit, all databases and everything other users of the executors observe are as if the calls made with its context had never been made.", "quantifier": "every history of calls by any number of executors, contexts and transactions", "why_tests_cant": "needs all interleavings and failure points", "anchors": ["executor/mysql/executor.go Begin, Commit, RollBack, Exec"]}
{"id": "C71", "title": "MySQL executor: a committed transaction happens at once", "statement": "If a transaction begun with the executor is committed successfully, all databases and everything others observe are as if all its statements had been executed at once at the moment of Commit.", "quantifier": "every history of calls by any number of executors, contexts and transactions", "why_tests_cant": "needs all interleavings", "anchors": ["executor/mysql/executor.go Begin, Commit, RollBack, Exec"]}
{"id": "C72", "title": "MySQL executor: transactions of different executors and nested commands are independent", "statement": "A transaction sees durable content and its own writes; an executor is not affected by transactions of another executor carried in the context; Begin inside a transaction gives an independent transaction; Commit or RollBack without or after the end of a transaction fails without effect.", "quantifier": "every context, executor, history", "why_tests_cant": "executors may be created at any time and contexts nested to any depth", "anchors": ["executor/mysql/executor.go NewExecutor, Begin, Exec"]}
{"id": "C73", "title": "Concurrent commands on MySQL: exactly the committed ones are in the database", "statement": "However many commands with transactions (the default) run concurrently on MySQL executors, at every moment each database contains, in commit order, all the writes of each command that committed, and nothing of any other.", "quantifier": "every number of commands, executors, contexts, interleavings, failures", "why_tests_cant": "needs all interleavings and crash points", "anchors": ["engine.go runWithTransaction", "executor/mysql/executor.go"]}
{"id": "C74", "title": "Redis lock: mutual exclusion within the lease", "statement": "Of any number of clients that lock a key with the Redis locker, at most one holds it within its lease; a key is granted only when every earlier lease of it has run out or was released, and a holder keeps it for its lease whatever others do. If no command outlives its lease, commands with a common key exclude each other in the sense of C69.", "quantifier": "every number of clients, keys, interleavings, clock advances, failing calls", "why_tests_cant": "depends on all interleavings of attempts, expiry and releases", "anchors": ["lock/redis/redis.go Lock, UnLock"]}
{"id": "C75", "title": "Redis lock: UnLock gives back only its own lock", "statement": "UnLock within the lease frees the key and succeeds; UnLock after another client obtained the key reports an error and changes nothing; UnLock never removes the lock of another client.", "quantifier": "every reachable state, client and key", "why_tests_cant": "the late UnLock races with the next holder", "anchors": ["lock/redis/redis.go UnLock"]}
{"id": "C76", "title": "Redis lock: bounded waiting", "statement": "Lock makes at most 31 attempts, 100 ms apart; it reports ErrEntityLocked only after 30 retries, at least 3 s after it began, with the key taken by an unexpired lock; an attempt that finds the key free obtains it.", "quantifier": "every history of other clients", "why_tests_cant": "all schedules of other clients", "anchors": ["lock/redis/redis.go Lock"]}
{"id": "C77", "title": "Commands on the database or Redis lock run one after the other", "statement": "If all commands ask for one common key, and no command still holds a lock when its lease runs out, then with the database lock (any number of attempts per Lock call, no renewals) and with the Redis lock everything the commands do between Begin and Commit/RollBack happens as if they were run one after the other.", "quantifier": "every number of commands, attempts, keys, interleavings, failing statements, clock advances within the lease", "why_tests_cant": "needs all interleavings of the lock statements with the commands", "anchors": ["lock/db/sql.go Lock, UnLock", "lock/redis/redis.go", "engine.go runLocked"]}
{"id": "C78", "title": "A command works on unchanging data: no lost update", "statement": "With an exclusive locker and transactions (the default), from Begin to Commit/RollBack of a command no other command sharing one of its keys begins, works or commits. If all commands committing on a database share a key, the database does not change meanwhile, and each query of the command in its transaction returns what the database contained at its Begin followed by its own writes.", "quantifier": "every number of commands, interleavings, failures, moments, snapshots since Begin", "why_tests_cant": "needs all interleavings", "anchors": ["engine.go Run, runWithTransaction", "executor/mysql/executor.go"]}
{"id": "C79", "title": "Commands as event handlers: handled exactly if every command ends without error", "statement": "A function passed to Engine.RegisterEventHandler is accepted exactly if it takes one pointer and has one result. On delivery of an event the handler commands of its type run in registration order, each with the event or its decoded payload; the delivery succeeds exactly if every command ends without error (or breaks off); otherwise the first failing handler's error or panic is the outcome and no later handler runs. With transactions, the durable effect of all deliveries is exactly the writes of the commands that committed, in order; a handler that reports an error did not commit.", "quantifier": "every history of registrations and deliveries, every construct function, command, environment, failure", "why_tests_cant": "all commands, environments and failures", "anchors": ["engine.go Engine.RegisterEventHandler", "event.go RegisterEventHandler, onEvent", "engine.go Engine.Run"]}
{"id": "C80", "title": "The effect of an event handler command happens at most once", "statement": "However often an event is delivered to a service (retries, several workers, restarts), the command handling it commits at most once, and exactly once if its handler succeeded and did not break off.", "quantifier": "every execution of the event bus, every number of workers and retries, every command", "why_tests_cant": "needs all interleavings, crashes and retries", "anchors": ["engine.go Engine.RegisterEventHandler", "eventbus/mysql/eventbus.go handleEvents, doWork", "event.go onEvent"]}
{"id": "C81", "title": "An event dispatched without error reaches every registered service", "statement": "If Dispatch on the MySQL event bus returns nil, a delivery record has been stored for each of its events and every service registered before the call; from then on the event is pending for the service, or was handled by it, or its handler failed as often as the retry strategy allows, or it was expired by hand.", "quantifier": "every execution of the bus with any number of services, dispatchers, workers, crashes, failing statements", "why_tests_cant": "needs every interleaving of dispatchers, scanners and cleaners", "anchors": ["eventbus/mysql/eventbus.go Dispatch, handleEvents"]}
{"id": "C82", "title": "Cron tasks: registered at most once per key, called once per due time", "statement": "RegisterCronTask / RegisterCronTaskOfCommand panics and changes nothing if the key has a handler; otherwise it returns exactly if the timer accepts the job, which is the job the service already had (unchanged) or a new one; after a refusal the key can not be registered again in the process. Each poll calls the task exactly once for each due job of its key with key, expression and data of the job and never for another; whatever it answers the job is rescheduled.", "quantifier": "every table content, registration, key, expression, time, answer of tasks", "why_tests_cant": "ranges over all job tables, handlers and outcomes", "anchors": ["engine.go RegisterCronTask, RegisterCronTaskOfCommand", "timer.go onTimer", "d_timer/sql/timer.go handleJobs"]}
{"id": "C83", "title": "Each run uses the options of its engine and its own, and no others", "statement": "A run on an engine uses for every setting (transaction, recursive delete, dry run, locker, executor, event persistence, logger, bus, timer, id generator) the value of the last option among those given to NewEngine and those given to this run, or the default; its PostSave hooks are those of the engine, of this run and of the command in this order; options of other runs and engines have no influence. NewEngine and runs panic exactly if the resulting bus or timer is nil. A run installs the package's callbacks on the bus and timer it uses (replacing any set by hand) and touches no other.", "quantifier": "every sequence of NewEngine calls and runs, every list of options, every growth behaviour of slices", "why_tests_cant": "ranges over all histories of calls and all option lists", "anchors": ["engine.go Options", "engine.go NewEngine", "engine.go NewStage", "engine.go WithOption", "engine.go RunCommand"]}
{"id": "C84", "title": "The result tells the output and the writes of the command", "statement": "The result of a command that ends without error and is not broken off carries the last value given to Output (nil if none) and, in order, the writes the executor performed; a result with an error, or broken off, carries neither, unless the transaction could not be committed, in which case it carries the writes although they were not committed. Actions never lists a write that was not performed.", "quantifier": "every command code, every behaviour of executor, hooks, converters, bus, locker, every heap", "why_tests_cant": "ranges over all programs and failure positions", "anchors": ["engine.go Stage.do", "engine.go Stage.exec", "engine.go Stage.setOutput", "engine.go ResultErrOrBreak", "command.go Output"]}
{"id": "C85", "title": "What a command leaves on the user's objects", "statement": "After a command, however it ends, the user's entity objects differ from before only by filled empty IDs, cleared dirty flags, and changes made by user code (command, entity hooks, loading); children, fields and events are not touched by the framework. An event held by an entity is dispatched by the first successful command that ends with that entity and not again by a later command on the same object.", "quantifier": "every command code, hooks, converter, executor, bus, locker behaviour, every outcome, every pair of commands on the same objects", "why_tests_cant": "ranges over all programs, environments and outcomes", "anchors": ["engine.go Stage.do", "engine.go collectEvents", "engine.go putNewID", "engine.go unDirty", "domain.go BaseEntity"]}
{"id": "C86", "title": "Commit in PostSave writes only what changed since", "statement": "StageAgent.Commit called in PostSave of a successful command writes only changes made after the command's own save.", "quantifier": "every command code and environment", "why_tests_cant": "ranges over all programs and environments", "anchors": ["engine.go Stage.do", "engine.go Stage.commit", "engine.go Stage.Save", "command.go StageAgent.Commit"]}
{"id": "C87", "title": "Each kind of command is run the way its type says", "statement": "Run on a value with Init, Build, Act and PostSave runs Init, then under the locks and transaction Build and Act, then saves and calls PostSave; a Main of such a value is never called. Any other value with Main has Init called if it has one, Main under the locks and transaction, and PostSave if it has one. A function is run as the main part. Create and Delete are commands adding/removing the given roots. Any other value panics before anything is called. Init, whatever it does (including Commit), writes nothing to the store.", "quantifier": "every value, user code, environment and options", "why_tests_cant": "ranges over all user programs, environments and combinations of methods", "anchors": ["engine.go Stage.Run", "engine.go Stage.runCommand", "engine.go Engine.Create", "engine.go Engine.Delete", "command.go StageAgent"]}
{"id": "C88", "title": "Build, then Act on the aggregate Build returned; all changes are saved", "statement": "Act is called exactly if Build returned roots that all have IDs and everything below them could be recorded, and then with these roots as the whole repository; otherwise the command fails with the error of Build, of the check or of the converter. Changes made to the aggregate in Build and in Act are saved.", "quantifier": "every Build and Act code, environment and options", "why_tests_cant": "ranges over all user programs and environments", "anchors": ["engine.go Stage.runCommand", "engine.go DomainBuilder.Build", "engine.go Stage.flush"]}
{"id": "C89", "title": "MySQL bus: a consumption pass handles every scanned delivery exactly once, at most ConsumeConcurrent at a time", "statement": "Whatever the schedule of the workers, deliveries are begun in scan order, each at most once, no more than ConsumeConcurrent at a time; with at least one worker the pass returns only when each was handled exactly once, it cannot deadlock and ends if all handlers do; a handler that hangs does not keep the others from being handled if there are two workers. With one worker the effect on the tables is that of handling the deliveries one after the other, and so it is with any number of workers and any schedule if no event demands an order. With ConsumeConcurrent <= 0 nothing is handled.", "quantifier": "all numbers of deliveries and workers, all schedules, handler outcomes and table contents", "why_tests_cant": "ranges over all interleavings of the workers", "anchors": ["eventbus/mysql/eventbus.go EventBus.dispatchEvents", "eventbus/mysql/eventbus.go EventBus.handleEvent"]}
{"id": "C90", "title": "MySQL bus: options do what they say", "statement": "NewEventBus panics exactly for a service name of more than 30 characters, an invalid CleanCron or a negative RetentionTime. RetryStrategy has priority, then RetryInterval with RetryLimit, then CustomRetry, then the default of 3 s and limit 5; the number of calls of a failing handler is Limit+2 or len(CustomRetry)+1. Each retry option given is honoured, and a configuration that is accepted works.", "quantifier": "all lists of options", "why_tests_cant": "ranges over all combinations and orders of options", "anchors": ["eventbus/mysql/eventbus.go NewEventBus", "eventbus/mysql/eventbus.go Options", "eventbus/mysql/eventbus.go IntervalRetry.Next", "eventbus/mysql/eventbus.go CustomRetry.Next"]}
{"id": "C91", "title": "MySQL bus: the polling loop survives whatever user code does", "statement": "Start starts one polling loop and one cleaning task however often it is called; no outcome of a handler ends the process; a transaction whose check-back fails does not keep the service from handling events; a service that could not be registered at construction is registered later.", "quantifier": "all histories of restarts, ticks, checker answers and operations of other clients", "why_tests_cant": "ranges over unbounded histories with crashes and restarts", "anchors": ["eventbus/mysql/eventbus.go EventBus.Start", "eventbus/mysql/eventbus.go EventBus.handleTransactions", "eventbus/mysql/eventbus.go EventBus.checkTX", "eventbus/mysql/eventbus.go EventBus.initService"]}
{"id": "C92", "title": "State and transactional events are one, from the command to the tables of the bus", "statement": "A command runs with a transactional executor and the MySQL bus. Whatever the point at which it fails or its process dies, and whatever other clients, services and instances do meanwhile: if its writes became durable, its transactional events are stored exactly once, all together, with a delivery record for every registered service, at the latest by the next check-back with an honest checker; if not, none of them is ever stored.", "quantifier": "all commands, environments, crash points, interleavings with operations of others on the bus, lost answers", "why_tests_cant": "composition of two systems under crashes and interleavings of unbounded length", "anchors": ["engine.go Stage.runWithTransaction", "engine.go Stage.dispatchEvents", "eventbus/mysql/eventbus.go EventBus.DispatchBegin", "eventbus/mysql/eventbus.go EventBus.Commit", "eventbus/mysql/eventbus.go EventBus.handleTransactions"]}
{"id": "C93", "title": "DBLock.Run: the callback is run once under the lock, and the lock is given back", "statement": "A call of Run makes at most five attempts to lock (one without Retry); if the last one does not succeed its error is returned, the callback is not called and nothing is unlocked; otherwise the callback is called exactly once, then UnLock exactly once, also when the callback panics, and Run returns nil or panics as the callback did, whatever UnLock answers. With a renew interval that is not positive, which NewDBLock accepts, the callback is never called.", "quantifier": "all executions of any number of calls of Run and other clients, all failures, cancellations, panics and delays", "why_tests_cant": "unbounded interleavings of calls, renewing goroutines, tickers and failing statements", "anchors": ["lock/db/sql.go DBLock.Run", "lock/db/sql.go NewDBLock", "lock/db/sql.go DBLock.Lock", "lock/db/sql.go DBLock.UnLock"]}
{"id": "C94", "title": "DBLock.Run: callbacks for one key do not overlap", "statement": "While the callback of a call of Run is executed for a key and its context is not done, no other callback is executed for that key.", "quantifier": "all executions of any number of calls of Run and other clients", "why_tests_cant": "unbounded interleavings, clock readings and delays", "anchors": ["lock/db/sql.go DBLock.Run", "lock/db/sql.go DBLock.lock", "lock/db/sql.go DBLock.update", "lock/db/sql.go NewDBLock"]}
{"id": "C95", "title": "DBLock.Run: the callback is told when the lock is lost, and nothing is left behind", "statement": "The context of the callback is done exactly when the caller cancelled its own or a renewal was not successful; a call that was overtaken never gets its row back and is told with its next renewal. After Run returned, the key is free and the renewing goroutine has ended.", "quantifier": "all executions", "why_tests_cant": "unbounded interleavings", "anchors": ["lock/db/sql.go DBLock.Run", "lock/db/sql.go DBLock.update", "lock/db/sql.go DBLock.UnLock"]}
{"id": "C96", "title": "Example: the total of an order is the sum of its lines minus its discounts", "statement": "After any call of AddSaleItem, DeleteSaleItem, AddCoupon or DeleteCoupon that returns no error, whatever happened to the order before, TotalAmount is the sum of price times count over its lines minus the discounts of its coupons (up to 64-bit wrap-around, exactly if the sum fits); an order whose total or remark changed is marked dirty; NewOrder returns an order with exactly the requested lines and coupons and the right total, or an error.", "quantifier": "all orders, histories of calls, rule engines, prices, counts and discounts", "why_tests_cant": "all histories and all 64-bit amounts, arbitrary rule engines", "anchors": ["example/biz/sale/domain/order.go NewOrder, AddSaleItem, DeleteSaleItem, AddCoupon, DeleteCoupon, Update, fixCoupons, calPrice"]}
{"id": "C97", "title": "Example: the coupons of an order are valid for it", "statement": "After every call about lines or coupons every coupon of the order is accepted by the rule engine for the order as it is; a coupon that is refused leaves the order unchanged; accepted calls change lines and coupons exactly as asked.", "quantifier": "all orders, calls, rule engines", "why_tests_cant": "arbitrary rule engines and histories", "anchors": ["example/biz/sale/domain/order.go fixCoupons, AddSaleItem, DeleteSaleItem, AddCoupon, DeleteCoupon"]}
{"id": "C98", "title": "Example: the stored total agrees with the stored lines and coupons", "statement": "After any history of the commands of the example, every stored order has the total of its stored lines and coupons, and reading an order answers its lines and coupons.", "quantifier": "all histories of commands, all tables, rule engines and identifiers", "why_tests_cant": "all histories of commands", "anchors": ["example/biz/sale/application/command", "example/biz/sale/infrastructure/init.go Init", "example/biz/sale/infrastructure/dal/order.go GetOrderSaleItems, GetOrderCoupons", "example/biz/sale/application/query/order.go GetOrder"]}
{"id": "C99", "title": "Timer: a process keeps polling, and nothing but a panic ends it", "statement": "NewDBTimer refuses only an empty name. However often Start is called a process has one polling loop. Errors of callbacks, selects, locks and saves never end the process; a started process ends only by a panicking callback or an interval that is not positive. A job whose callback fails does not keep other jobs from being called.", "quantifier": "all histories of starts, ticks, restarts and changes of the table by others, all callbacks and failures", "why_tests_cant": "all histories with crashes and restarts", "anchors": ["d_timer/sql/timer.go NewDBTimer", "d_timer/sql/timer.go DBTimer.Start", "d_timer/sql/timer.go DBTimer.handleJobs", "d_timer/sql/timer.go DBTimer.RegisterTimerHandler"]}
{"id": "C100", "title": "MySQL bus: transactions in a context are independent", "statement": "A call of the bus is affected by its context only through the innermost transaction begun with that bus: transactions of other buses in the context do not matter, without an own one Commit and Rollback answer ErrNoTransaction and change nothing, the context returned by DispatchBegin stands for the transaction just begun, a call changes no database but that of its bus, and a plain Dispatch with such a context does not disturb the transaction.", "quantifier": "all contexts, buses, databases, events and failures", "why_tests_cant": "buses may be created at any time and contexts nested to any depth", "anchors": ["eventbus/mysql/eventbus.go NewEventBus", "eventbus/mysql/eventbus.go EventBus.getTX, ctxWithTX, getDB, ctxWithDB", "eventbus/mysql/eventbus.go EventBus.Dispatch, DispatchBegin, Commit, Rollback"]}
{"id": "C101", "title": "Events are what was asked for", "statement": "NewDomainEvent returns an event with the type, sender and encoding of the user's event, or panics if it can not be encoded; it is sent in the way the last WithSendType says, normally by default; an event that is to be delayed until a time is not handed to a handler before it.", "quantifier": "all event types, option lists, clocks, buses", "why_tests_cant": "all option lists and encodings", "anchors": ["event.go NewDomainEvent", "event.go WithSendType", "event.go EventOption", "eventbus/mysql/eventbus.go EventBus.handleEvent"]}
{"id": "C102", "title": "Without overlap the bus delivers properly", "statement": "As long as the operations on the MySQL bus do not overlap (any sequence of registrations, dispatches, transactional dispatches, check-backs, worker runs and cleanings of any number of services, on a clock that does not go back; dispatches and commits may break off after any statement, runs between two records), the handler of a service is called for a stored event with that event, succeeds at most once, is not called again after it succeeded, is called at most Limit+2 (or number of intervals + 1) times and not earlier than the interval after a failure; and no stored delivery disappears unless it was handled successfully or failed Limit+2 times.", "quantifier": "all histories of operations, events, services, handler outcomes, break-off points, configurations", "why_tests_cant": "all histories; the properties are proved of all interleavings and transferred by a refinement proof", "anchors": ["eventbus/mysql/eventbus.go EventBus.Dispatch", "eventbus/mysql/eventbus.go EventBus.handleEvents", "eventbus/mysql/eventbus.go EventBus.cleanEvents", "eventbus/mysql/eventbus.go EventBus.handleTransactions"]}
{"id": "C103", "title": "Cleaning is safe next to everything else", "statement": "As long as no dispatch is still storing delivery records and no worker is between reading records and reading their events for events older than the retention time, then in every interleaving of dispatchers, workers, cleaners and crashes: the event of every stored delivery record is in the database; an event row is removed only when it is older than the retention time, no record of any service references it, no dispatch under way will reference it, and every service a record was stored for has handled it successfully; and no stored delivery is lost.", "quantifier": "all interleavings of any number of dispatchers, workers, cleaners, crashes and manual expiry; all events, services, configurations", "why_tests_cant": "all interleavings of several processes at the level of single SQL statements", "anchors": ["eventbus/mysql/eventbus.go EventBus.cleanEvents", "eventbus/mysql/eventbus.go EventBus.Dispatch", "eventbus/mysql/eventbus.go EventBus.getScanEvents"]}
{"id": "C104", "title": "Without overlap, FIFO senders are served in order", "statement": "In every history of operations of the MySQL bus that do not overlap (registrations, dispatches, transactions of others, worker runs, also ones that break off, cleanings): if the FIFO events of a sender are dispatched in the order of their creation by dispatches that return nil after the service was registered, and the service's workers never run while an event of the sender it has not handled is older than the scan window, then the events of this sender that the service has handled successfully are always a prefix of those dispatched (in order, each once, without gaps), and whenever its handler is called for one, it is the next one.", "quantifier": "all histories of operations, events, numbers of services, handler answers, retry strategies that count, run limits and configurations", "why_tests_cant": "all histories of dispatches, runs and cleanings, of any length, with any answers of the handlers", "anchors": ["eventbus/mysql/eventbus.go EventBus.handleEvent", "eventbus/mysql/eventbus.go EventBus.checkPrecedingReady", "eventbus/mysql/eventbus.go EventBus.handleEvents", "eventbus/mysql/eventbus.go EventBus.cleanEvents"]}
{"id": "C105", "title": "A command depends on nothing but the answers to its calls", "statement": "Two environments (executor, converter, locker, event bus, ID generator, hooks) that give the same answers to the calls a command makes lead to exactly the same calls, result, writes and objects; and the outcome recorded for a call (which the other properties are about) is the environment's answer to this very call after exactly the calls before it; hooks are called only of entities that have them.", "quantifier": "all environments (answers may depend on the whole history), options, commands (arbitrary user code), initial objects; map iteration orders equal", "why_tests_cant": "all environments and programs", "anchors": ["engine.go Stage.Save", "engine.go Stage.do", "engine.go Stage.persist", "engine.go Stage.execHook", "engine.go Stage.runWithTransaction", "engine.go Stage.runOnLock"]}
{"id": "C106", "title": "What a handler sees of the event", "statement": "Every handler called for an event is given the event that was sent (or what its payload decodes to), whatever the handlers before it did. (False: the event object is shared by the handlers that take *DomainEvent; what one of them writes is what later handlers are given. Handlers with event types of their own can not affect each other, and the handlers called are always those registered for the type the event had at first.)", "quantifier": "all registries, events, handler answers and anything handlers write to the event object", "why_tests_cant": "all programs of handlers and orders of registration", "anchors": ["event.go onEvent"]}
{"id": "C107", "title": "Memory bus: handlers may dispatch", "statement": "A started memory bus keeps handling events, also when its handlers dispatch events on it (as handlers do that run commands). (False for every capacity: a handler that finds the channel full waits for itself.)", "quantifier": "all capacities, callers, interleavings and handlers dispatching any lists of events", "why_tests_cant": "all interleavings", "anchors": ["eventbus/mem/eventbus.go Dispatch", "eventbus/mem/eventbus.go Start"]}
{"id": "C108", "title": "Output ends the command", "statement": "As its documentation says, calling Output in Init, Build or Act keeps the methods that would follow from being executed. (False: Output sets the result's output and nothing else; everything that follows is carried out exactly as without the call.)", "quantifier": "all commands with Init, Build, Act and PostSave, all placements of Output, options, environments with failures and panics", "why_tests_cant": "all programs and failure points", "anchors": ["command.go Output", "engine.go setOutput", "engine.go runCommand"]}
{"id": "C109", "title": "A stage can be saved again", "statement": "Save can be called again on the same stage, in particular to retry after a failure: it then does what is left to do. (False: after a failed Commit no later Save of the stage can succeed, it writes everything, rolls back and reports the old error; after a success a second Save repeats all writes. It holds if Main was not reached.)", "quantifier": "all stages in any state of use, options, lock keys, Mains, environments with failures and panics, sequences of Saves", "why_tests_cant": "all histories of Saves and failure points", "anchors": ["engine.go Save", "engine.go runWithTransaction", "engine.go do", "engine.go NewStage"]}
{"id": "C110", "title": "A command object can be used by several runs", "statement": "Each run of a command object saves and answers for itself: a call of Commit or Output made by the code of a run acts on the stage and the result of that run. (False if another run of the same object is started before the first one made its last call: the call then acts on the run started last.)", "quantifier": "all histories of starts and calls, any number of runs of one command object, any interleaving", "why_tests_cant": "interleavings of runs", "anchors": ["command.go SetStage", "command.go Commit", "command.go Output", "engine.go runCommand"]}
{"id": "C111", "title": "MySQL executor: a write touches exactly the rows of the entities", "statement": "Insert, update and delete actions affect exactly the rows whose primary keys are those of the models, whatever the primary key of the table is. (False: a composite key with a zero field makes an update write other rows; a key column that is not GetID makes a delete miss or hit other rows; a changed key makes the update disappear without an error.)", "quantifier": "all tables, primary keys, models, previous models, sequences of actions", "why_tests_cant": "all table contents and keys", "anchors": ["executor/mysql/executor.go opMap", "executor/mysql/executor.go Exec", "engine.go exec"]}
{"id": "C112", "title": "Database lock with clocks that differ and different lease times", "statement": "At most one client holds a key within its lease, also when the clients' clocks differ and when the lock objects are configured with different lease times. (False: the time stamp of the holder's clock is compared with the clock and lease time of the client that wants the lock; true with a margin of twice the clock error below the smallest lease time, and no smaller margin is enough.)", "quantifier": "all numbers of clients, keys, lease times, clocks with bounded error (drifting, non-monotonic), interleavings, statement errors", "why_tests_cant": "all schedules and clock readings", "anchors": ["lock/db/sql.go Lock", "lock/db/sql.go UnLock", "lock/db/sql.go NewDBLock"]}
{"id": "C113", "title": "Any object graph: change detection comes back", "statement": "Whatever entities refer to each other, walking over them and finding the changes comes back with a result or an error. (False: an entity that is below itself, for instance a child with an exported field for its parent, makes every walk recurse until the process dies of stack overflow; with all other graphs the calls come back.)", "quantifier": "all object graphs, map orders, snapshots, dirty flags, callbacks, recursion depths", "why_tests_cant": "all graphs, all depths", "anchors": ["snapshot.go walk", "snapshot.go entityDiff", "snapshot.go recursiveDelete", "engine.go getEntityChanged"]}
{"id": "C114", "title": "MySQL bus: a failure is counted, whatever its message", "statement": "If a handler of the MySQL event bus fails (error or panic), the failure counts: the retry strategy's new count and time are stored, or the delivery becomes failed, whatever text the error has. So an event is handled a bounded number of times and with the configured pauses.", "quantifier": "all histories of the bus (dispatches, transactions, passes, cleanings, other services), all error texts, all strategies, all databases' rules for which texts the column takes", "why_tests_cant": "Tests use short ASCII messages. The counterexamples are texts of more than 65535 bytes in which byte 65535 is inside a character (error texts with stacks get long) and texts that are not UTF-8, and the effect shows only over many passes.", "anchors": ["eventbus/mysql/eventbus.go:549-601 handleEvent", "eventbus/mysql/eventbus.go:571-579", "eventbus/mysql/po.go:164-174 ServiceEventPO"]}
{"id": "C115", "title": "MySQL bus: the process survives a retry strategy that panics", "statement": "A panic in user code that the MySQL event bus calls while it handles an event (handler or retry strategy) does not end the process, and the other events are still handled.", "quantifier": "all tables, all times, all handlers, all strategies", "why_tests_cant": "No test uses a strategy that panics; the panic is in a deferred function after a recover, so that it escapes the recover that seems to cover it.", "anchors": ["eventbus/mysql/eventbus.go:439-459 doRetryStrategy", "eventbus/mysql/eventbus.go:563-579", "eventbus/mysql/eventbus.go:461-485 dispatchEvents"]}
{"id": "C116", "title": "A service that starts loses no event, whatever the order of Start, NewEngine and the registrations", "statement": "A delivery that was pending when a process started and is finished later was handled: every handler the program registers for the type of the event was called with it, in order, and returned nil. Starting the bus before the engine is created and the handlers and checkers are registered (as the example does) neither loses events nor rolls committed transactions back nor ends the process.", "quantifier": "for all interleavings of the ticks of a started bus with NewEngine, registrations, restarts and whatever other processes do; all tables, handlers and checkers", "why_tests_cant": "The window between Start and the registrations is a few microseconds to seconds wide and depends on the scheduler; a test would have to enumerate the ticks that fall into it and all tables.", "anchors": ["eventbus/mysql/eventbus.go Start, handleTransactions, checkTX, handleEvents", "event.go onEvent, onTXChecker, RegisterEventHandler, RegisterEventTXChecker", "engine.go NewEngine", "example/main.go main"]}
{"id": "C117", "title": "A due timer job reaches the handler of its key, and tasks are called by the timer only", "statement": "When a job of the DB timer comes due, the handlers registered for its key are called with its key, expression and data before the job is finished or rescheduled; a RunOnce job that is finished has been handled. A cron task is called only when a job of its key is due.", "quantifier": "for all tables, registries, handlers, polls and published events", "why_tests_cant": "Whether a handler is registered at the moment of a poll depends on timing, and whether an event type equals a timer key depends on the names all modules of a program choose; no finite set of programs covers that.", "anchors": ["timer.go onTimer, TimerEvent", "d_timer/sql/timer.go handleJobs", "event.go onEvent", "engine.go RegisterCronTask, RegisterCronTaskOfCommand"]}
{"id": "C118", "title": "Hosts whose clocks differ: no delivery or job is lost or called early", "statement": "With clocks of the hosts that differ by any amount, the MySQL bus still loses no delivery, the timer never calls a scheduled time again once its call was saved, and neither a retry, nor the removal of an event, nor a timer callback comes before its stored time (for a retry: the interval after what the clock of the failing host showed) by more than the amount by which the clock of the host that does it is ahead of the true time.", "quantifier": "for all clock readings of all processes (ahead by at most `ahead`, behind by any amount), all histories and interleavings", "why_tests_cant": "Clock differences between production hosts are not in a test's hands; the property is about every combination of readings in every interleaving.", "anchors": ["eventbus/mysql/eventbus.go getScanEvents, doRetry, handleEvent, cleanEvents", "d_timer/sql/timer.go handleJobs, RunOnce, RunCron", "d_timer/sql/model.go Reset"]}
{"id": "C119", "title": "Using the bus from outside of the framework: business data and event stand or fall together", "statement": "A program that follows the outer-usage pattern (business writes and DispatchBegin inside one database transaction, bus Commit after it succeeded, bus Rollback after it failed, a transaction checker that tells the truth) gets both or neither: if the database transaction did not become durable its event is never stored, if it became durable the event is stored exactly once with a record for every registered service, now or at the next check-back.", "quantifier": "for all business writes, all answers of the database and of the bus (errors, panics, lost answers), all crash points of the function, all interleavings with other clients, instances and services of the bus", "why_tests_cant": "Crash points, lost commit answers and interleavings with the check-back of other instances cannot be enumerated by tests.", "anchors": ["example/example_outer/outer_usage.go Init, Handle", "eventbus/mysql/eventbus.go DispatchBegin, Commit, Rollback, checkTX, handleTransactions", "event.go RegisterEventBus, onTXChecker"]}
{"id": "C120", "title": "A checker or handler registered at the bus is the one that is asked", "statement": "The transaction checker, and the event handler, a program registered last at the MySQL bus itself is the one the bus calls, for every event, for the rest of the program.", "quantifier": "for all programs: sequences of registrations at the bus, RegisterEventBus, NewEngine, Run, RunCommand, Create, Delete and registrations by event type; for all events", "why_tests_cant": "It depends on the order of set-up calls and on every later command; tests fix one order.", "anchors": ["event.go RegisterEventBus, onEvent, onTXChecker", "engine.go NewEngine, WithOption, Run, RunCommand", "eventbus/mysql/eventbus.go RegisterEventHandler, RegisterEventTXChecker", "example/example_outer/outer_usage.go Init"]}
{"id": "C121", "title": "The data of an event reach its handlers", "statement": "A handler gets the data of the event as they were when the event was made: every field of its parameter has the value it had in the event that was dispatched; a handler written against another version of the event's type gets every field that both versions have.", "quantifier": "for all event types (nested structs, pointers, slices, maps, interfaces, times, byte slices, tags) and all values of them, all handler types", "why_tests_cant": "The number of types and values is unbounded; tests use a handful of flat events.", "anchors": ["event.go NewDomainEvent, onEvent, onTXChecker", "eventbus/mysql/po.go EventPO, TransactionPO"]}
{"id": "C122", "title": "Several instances of a service: registered handlers get their events", "statement": "When a service runs as several instances, an event is finished for the service only after every handler that any running instance registered for its type has been called with it and succeeded; a transaction that hangs is decided by the checker its program registered.", "quantifier": "for all numbers of instances and services, all registrations of each (old and new programs at the same time), restarts, all interleavings of the bus, all events and handler behaviours", "why_tests_cant": "It depends on which instance happens to take a delivery while a deployment is under way; tests run one process.", "anchors": ["eventbus/mysql/eventbus.go handleEvents, handleEvent, handleTransactions, checkTX", "event.go RegisterEventHandler, onEvent, onTXChecker"]}
{"id": "C123", "title": "From a command to the commands handling its events: no effect without its cause, every cause has its effect once", "statement": "A command with a transactional executor hands a transactional event over to the MySQL bus, and services register commands as handlers of it (Engine.RegisterEventHandler). Wherever the producing command fails or its process dies: a handler command of any service runs for the event only if the writes of the producing command are durable. If they are durable, then - as soon as the bus was told or has checked back - each event has one delivery for every service registered by then, handlers are called with exactly that event, and at each service the handler command commits exactly once, unless it is still pending or its handler failed Limit+2 times; what becomes durable at the service are exactly the writes of the committed handler commands. And it does come about: after a check-back of the producing service when the transaction is due, and a run of a service's worker whose due work fits into the run, the handlers of that service have been called with each (unordered, not outdated) event.", "quantifier": "all producing commands, environments, crash points, histories of operations on the bus before, during and after, services, handler commands and their environments, retry limits", "why_tests_cant": "needs a two-sided argument through four layers (stage, bus transaction, delivery, handler command) over all crash points and histories; a test runs one chain", "anchors": ["stage.go: Save, doEvents, commit", "eventbus/mysql/eventbus.go: DispatchBegin, Commit, Dispatch, handleTransactions, handleEvents, handleEvent", "engine.go: RegisterEventHandler", "event.go: onEvent"]}
{"id": "C124", "title": "FIFO senders with events sent in transactions", "statement": "In every history of operations of the MySQL bus that do not overlap: the FIFO events of a sender, sent by Dispatch, by DispatchBegin with a later Commit, or stored by the check-back after the client died, are handled by each service in the order in which they were created, each once, without gaps; whenever the handler is called for one, it is the next one. (Provided each is recorded for the service when stored and none that is not handled gets older than the scan window.)", "quantifier": "all histories of registrations, dispatches, begins, commits, rollbacks, check-backs, worker runs and cleanings, each breaking off after any number of statements; all events, answers, strategies that count, configurations", "why_tests_cant": "all histories of any length in which transactions of the same sender interleave in any way; a test has one interleaving", "anchors": ["eventbus/mysql/eventbus.go: Dispatch, DispatchBegin, Commit, checkTX, handleTransactions, handleEvents, checkPrecedingEvent, cleanEvents"]}
{"id": "C125", "title": "Timer: an accepted job is not lost", "statement": "A registration (RunOnce, RunCron) that is answered with success makes the service's callback be called at its time. In every history, with any number of instances, crashes, callback failures, failed saves and wrong clocks: a stored job is pending in the table with the service, key, expression and data it was registered with (a one-shot job also with its time) until it is cancelled or, for a one-shot job, a call was completed; every undisturbed poll at or after its time calls it with its key and data; a cron job that is not cancelled stays pending for ever.", "quantifier": "all reachable states of any number of timer instances and clients; all registrations, schedules, crashes, clocks", "why_tests_cant": "all histories of registrations, polls, crashes and cancels of any length; a test has one", "anchors": ["d_timer/sql/timer.go: RunCron, RunOnce, Cancel, runJob, handleJobs", "d_timer/sql/model.go: TimerJob.Next, TimerJob.Reset"]}
{"id": "C126", "title": "Timer: one process calls a job exactly once for each of its times", "statement": "One service instance runs, is stopped between two jobs and started again any number of times, while clients register and cancel jobs of any service. Every call of the callback is for a job of the service that was pending and whose time had come; a RunOnce job that is pending when a pass begins, and is not cancelled during it, is called in that pass and never again (exactly once over the whole life of the timer); a RunCron job is never called twice for the same time: between two successive calls the stored time became the next time of its expression after the first call, and the second call is not before it.", "quantifier": "all histories of one process at a time (starts, stops between jobs, ticks, any clock advance), all callbacks answering nil or an error, all interleaved registrations and cancels", "why_tests_cant": "histories of any length and any interleaving of clients with the pass; a test has one", "anchors": ["d_timer/sql/timer.go: NewDBTimer, Start, handleJobs, runJob, RunCron, RunOnce, Cancel", "d_timer/sql/model.go: TimerJob.Next, TimerJob.Reset"]}
{"id": "C127", "title": "Commands run from inside other commands do not deadlock on their lock keys", "statement": "Commands may run further commands inside their Main, to any depth, while their own locks are held. No circular wait is possible between any number of such commands, some command can always go on, and when a command is through (also after a refused lock, a failed nested command or an early return) none of its keys is still held.", "quantifier": "any number of concurrent commands, any key sets, any nesting, any point at which the lock service refuses a key or a Main returns early, every interleaving", "why_tests_cant": "unboundedly many commands, nestings and interleavings", "anchors": ["engine.go: Stage.runOnLock, Engine.Run"]}
{"id": "C128", "title": "Transactional events under overlapping Commit, Rollback and check-back", "statement": "In every interleaving of the statements of clients' Commit and Rollback calls and of check-backs run by any number of instances of any services, with errors and crashes everywhere: the events of a transaction are stored only because a client called Commit or because the checker answered commit; after Rollback returned nil, and after a check-back that deleted the row has committed, no instance asks the checker about the transaction any more and no check-back stores its events; when Commit returns nil the events have been stored; and they are stored at most once.", "quantifier": "any number of clients, transactions, services and instances, any clock readings, any answers of the checker, errors and crashes at every statement, both REPEATABLE READ and READ COMMITTED, every interleaving", "why_tests_cant": "unboundedly many concurrent clients, instances and interleavings of statements", "anchors": ["eventbus/mysql/eventbus.go: DispatchBegin, Commit, Rollback, checkTX, handleTransactions"]}
{"id": "C129", "title": "Parents are written before their children", "statement": "When a save inserts an entity and, below it, another one, it asks the converter for the model of the parent before that of the child and hands the parent's row to the executor before the child's row (earlier in the same batch or in an earlier batch), so a database that checks foreign keys accepts the inserts. Of two entities inserted below the same parent, the one in the field whose name comes first is asked for first.", "quantifier": "every aggregate (any depth, any sharing, any model types), every recorded state, any converter, every executor", "why_tests_cant": "unboundedly many aggregate shapes, assignments of model types and recorded states", "anchors": ["engine.go: Stage.makeActions, Stage.persist", "snapshot.go: entityDiff, handleEntityMove, recursiveDelete"]}
{"id": "C130", "title": "Listing the orders of the example application", "statement": "GetOrderList answers with orders that are stored and match the user and the interval asked for, each at most as often as it is stored and no more than Limit; without Offset and Limit with all of them; and the pages obtained with Offset 0, n, 2n, ... together contain each of them once.", "quantifier": "every table of orders, every request, any order in which the database answers", "why_tests_cant": "unboundedly many tables, requests and orders of rows in answers", "anchors": ["example/handler/order.go: GetOrderList", "example/biz/sale/application/query/order.go: GetOrderList", "example/biz/sale/application/query/pack/order.go: MakeSimpleOrderList", "example/biz/sale/infrastructure/dal/order.go: GetOrderList", "example/biz/sale/infrastructure/po/order.go: OrderPO"]}
{"id": "C131", "title": "Unique columns hold while a save is written", "statement": "If a table has a unique column (besides its id) and the rows that are stored after a save respect it, then the save does not fail because of it: at no moment while its rows are written do two rows of the table have the same value in that column.", "quantifier": "every forest, every outcome of diffing and conversion, every store, every unique column, every moment between two rows being written", "why_tests_cant": "the order of operations and rows depends on the forest, and the values on the conversion; unboundedly many of both", "anchors": ["engine.go: Stage.makeActions", "engine.go: Stage.persist", "engine.go: Stage.exec", "executor/mysql/mysql.go: Executor.Exec"]}
{"id": "C132", "title": "Requests to the HTTP service of the example", "statement": "A request to the example's HTTP service is answered with 404 if its Action is not an operation of the service, with 400 if its body is not a request for that operation, with 200 and the response if the operation was done and with 500 if it failed; whatever is not answered with 200 changes nothing, and what is was done exactly once.", "quantifier": "every sequence of requests (actions, methods, bodies), every content of the tables, every JSON decoder and encoder, every outcome of locks and transactions", "why_tests_cant": "unboundedly many sequences of requests and contents of tables", "anchors": ["example/handler/util/http.go: Handler", "example/handler/order.go: SaleServiceImpl", "example/handler/request.go", "example/biz/sale/application/command", "example/biz/sale/application/query/order.go: GetOrder", "example/main.go: main"]}
