{
 "claims": [
  {
   "property": "C01",
   "status": "proved",
   "theorems": [
    "Ddd.C01_changes_exact"
   ],
   "note": "All heaps, snapshots, iteration orders; graphs acyclic."
  },
  {
   "property": "C04",
   "status": "partial",
   "theorems": [
    "Ddd.C04_accepted_iff",
    "Ddd.C04_rejected_untouched",
    "Ddd.C04_move_is_one_update_partial",
    "Ddd.C04_moves_accepted_partial",
    "Ddd.C04_three_moves_rejected",
    "Ddd.C04_old_parent_removed"
   ],
   "note": "Full claim is false of the code: moving three or more children out of one field is rejected (C04_three_moves_rejected), and a move out of a parent removed in the same save is an insert (C04_old_parent_removed). Proved: every accepted move is one update under the new parent; exactly which moves are accepted (C04_accepted_iff: the moved child is among the last two children removed from its field)."
  },
  {
   "property": "C05",
   "status": "proved",
   "theorems": [
    "Ddd.C05_conflict_rejected"
   ],
   "note": ""
  },
  {
   "property": "C06",
   "status": "proved",
   "theorems": [
    "Ddd.C06_identifiers"
   ],
   "note": ""
  },
  {
   "property": "C07",
   "status": "proved",
   "theorems": [
    "Ddd.C07_every_row_written",
    "Ddd.C07_failing_save_writes_prefix"
   ],
   "note": ""
  },
  {
   "property": "C08",
   "status": "partial",
   "theorems": [
    "Ddd.C08_recursive_delete_partial",
    "Ddd.C08_once_per_place",
    "Ddd.C08_once",
    "Ddd.C08_detached_descendant_survives"
   ],
   "note": "The last sentence is false of the code: a descendant detached in the same session is not deleted (C08_detached_descendant_survives). The rest is proved."
  },
  {
   "property": "C09",
   "status": "proved",
   "theorems": [
    "Ddd.C09_delete_only_removed"
   ],
   "note": ""
  },
  {
   "property": "C14",
   "status": "partial",
   "theorems": [
    "Ddd.C14_ended_once_partial",
    "Ddd.C14_always_ended",
    "Ddd.C14_commit_panic_ends_twice",
    "Ddd.C14_rollback_panic_ends_twice"
   ],
   "note": "Exactly once is false of the code when Commit/RollBack (executor or bus) itself panics (two counterexample theorems); proved for all runs where these calls do not panic, and always-ended/at most one commit/never commit after rollback without assumption."
  },
  {
   "property": "C15",
   "status": "proved",
   "theorems": [
    "Ddd.C15_commit_only_after_success",
    "Ddd.C15_otherwise_rolled_back"
   ],
   "note": ""
  },
  {
   "property": "C16",
   "status": "proved",
   "theorems": [
    "Ddd.C16_all_or_nothing",
    "Ddd.C16_writes_inside"
   ],
   "note": "Crash points are prefixes of the call trace; the database is any transactional store (Spec/Trace.lean)."
  },
  {
   "property": "C17",
   "status": "proved",
   "theorems": [
    "Ddd.C17_failed_commit"
   ],
   "note": ""
  },
  {
   "property": "C18",
   "status": "proved",
   "theorems": [
    "Ddd.C18_break_main",
    "Ddd.C18_break_init",
    "Ddd.C18_break_only"
   ],
   "note": ""
  },
  {
   "property": "C19",
   "status": "partial",
   "theorems": [
    "Ddd.C19_hooks_partial",
    "Ddd.C19_init_break_skips_hooks"
   ],
   "note": "False of the code when Init breaks: no error, yet no hook is called (counterexample). Everything else proved."
  },
  {
   "property": "C21",
   "status": "proved",
   "theorems": [
    "Ddd.C21_dry_run"
   ],
   "note": ""
  },
  {
   "property": "C22",
   "status": "proved",
   "theorems": [
    "Ddd.C22_lock_order"
   ],
   "note": ""
  },
  {
   "property": "C23",
   "status": "partial",
   "theorems": [
    "Ddd.C23_held",
    "Ddd.C23_refused",
    "Ddd.C23_released_partial",
    "Ddd.C23_lock_panic_leaks",
    "Ddd.C23_unlock_panic_leaks"
   ],
   "note": "Release is false of the code when Lock/UnLock itself panics (two counterexamples); everything else proved."
  },
  {
   "property": "C60",
   "status": "proved",
   "theorems": [
    "Ddd.C60_hooks_exact",
    "Ddd.C60_failing_hook",
    "Ddd.C60_hooks_recursive",
    "Ddd.C60_recursive_twice"
   ],
   "note": "C60_recursive_twice: with recursive delete the hooks of one entity can be called twice."
  },
  {
   "property": "C61",
   "status": "partial",
   "theorems": [
    "Ddd.C61_contention_never_recognisable"
   ],
   "note": "The property is false of the code: proved that the error is never recognisable, for every environment."
  },
  {
   "property": "C12",
   "status": "proved",
   "theorems": [
    "Ddd.C12_misuse_fails",
    "Ddd.C12_later_saves_fail"
   ],
   "note": "Every user program; a Main that itself asks for a break ends with Break instead of an error, a panicking Main panics."
  },
  {
   "property": "C13",
   "status": "partial",
   "theorems": [
    "Ddd.C13_container_misuse_commits",
    "Ddd.C13_container_misuse_ignored"
   ],
   "note": "The property is false of the code (RootContainer is passed by value): proved that the misuse is ignored and such commands commit."
  },
  {
   "property": "C29",
   "status": "proved",
   "theorems": [
    "Ddd.C29_collected",
    "Ddd.C29_order_independent",
    "Ddd.C29_dispatched",
    "Ddd.C29_removed_remembered"
   ],
   "note": ""
  },
  {
   "property": "C30",
   "status": "proved",
   "theorems": [
    "Ddd.C30_events_after_writes"
   ],
   "note": ""
  },
  {
   "property": "C31",
   "status": "proved",
   "theorems": [
    "Ddd.C31_handover",
    "Ddd.C31_bus_commit_only_after_commit",
    "Ddd.C31_committed_on_bus",
    "Ddd.C31_rolled_back_on_bus"
   ],
   "note": "Assumes DispatchBegin returns a non-nil context when it succeeds."
  },
  {
   "property": "C32",
   "status": "partial",
   "theorems": [
    "Ddd.C32_commit_may_fail_after_dispatch",
    "Ddd.C32_dispatch_then_commit_partial"
   ],
   "note": "False of the code when Commit fails after the dispatch (counterexample); proved: a successful dispatch is immediately followed by Commit."
  },
  {
   "property": "C33",
   "status": "proved",
   "theorems": [
    "Ddd.C33_persisted_events",
    "Ddd.C33_not_persisted"
   ],
   "note": ""
  },
  {
   "property": "C02",
   "status": "proved",
   "theorems": [
    "Ddd.C02_second_save_silent",
    "Ddd.C02_repository_save_again",
    "Ddd.C02_final_save_silent"
   ],
   "note": ""
  },
  {
   "property": "C10",
   "status": "proved",
   "theorems": [
    "Ddd.C10_record_isolated",
    "Ddd.C10_get_records",
    "Ddd.C10_save_compares_with_load",
    "Ddd.C10_save_compares_with_save"
   ],
   "note": ""
  },
  {
   "property": "C11",
   "status": "proved",
   "theorems": [
    "Ddd.C11_update_has_record",
    "Ddd.C11_save_panics_only_in_calls",
    "Ddd.C11_main_panics_only_in_calls",
    "Ddd.C11_command_panics_only_outside",
    "Ddd.C11_failed_load_then_save_panics"
   ],
   "note": "The assumption that no snapshot step fails is needed (C11_failed_load_then_save_panics)."
  },
  {
   "property": "C62",
   "status": "partial",
   "theorems": [
    "Ddd.C62_get_fails_only_otherwise_partial",
    "Ddd.C62_get_tracks_partial",
    "Ddd.C62_save_fails_only_otherwise",
    "Ddd.C62_unregistered_no_row",
    "Ddd.C62_wrapped_error_fails_get"
   ],
   "note": "False of the code for errors wrapping ErrEntityNotRegister during loading (swapped errors.Is, counterexample); proved for the plain sentinel, and for saving with any wrapping."
  },
  {
   "property": "C25",
   "status": "partial",
   "theorems": [
    "Ddd.Lock.C25_exclusive_partial",
    "Ddd.Lock.C25_exclusive_without_renewal",
    "Ddd.Lock.C25_exclusive_with_margin",
    "Ddd.Lock.C25_renewal_race"
   ],
   "note": "False of the code if renewals are merely made before the lease ran out (C25_renewal_race: stale read, then compare-and-swap on locker ID only). Proved without renewals, and with renewals keeping a margin of the maximal read-to-check delay."
  },
  {
   "property": "C26",
   "status": "proved",
   "theorems": [
    "Ddd.Lock.C26_only_own_lock"
   ],
   "note": ""
  },
  {
   "property": "C27",
   "status": "partial",
   "theorems": [
    "Ddd.Lock.C27_renewal_keeps_partial",
    "Ddd.Lock.C27_late_renewal_lost"
   ],
   "note": "False of the code for a late renewal (C27_late_renewal_lost); proved for timely ones."
  },
  {
   "property": "C28",
   "status": "proved",
   "theorems": [
    "Ddd.Lock.C28_bounded_retry",
    "Ddd.Lock.C28_free_key_obtained"
   ],
   "note": ""
  },
  {
   "property": "C34",
   "status": "proved",
   "theorems": [
    "Ddd.Router.C34_routing",
    "Ddd.Router.C34_success_iff",
    "Ddd.Router.C34_ill_typed",
    "Ddd.Router.C34_struct_error_panics"
   ],
   "note": "For handlers of the documented form; the registration check also accepts ill-typed ones that panic when called (C34_ill_typed, C34_struct_error_panics)."
  },
  {
   "property": "C35",
   "status": "proved",
   "theorems": [
    "Ddd.Router.C35_answer",
    "Ddd.Router.C35_no_checker",
    "Ddd.Router.C35_second_refused"
   ],
   "note": ""
  },
  {
   "property": "C20",
   "status": "partial",
   "theorems": [
    "Ddd.Hooks.C20_own_hooks_only_partial",
    "Ddd.Hooks.C20_no_own_hooks",
    "Ddd.Hooks.C20_full_iff",
    "Ddd.Hooks.C20_hooks_mix"
   ],
   "note": "False of the code when the engine's hook slice has spare capacity, e.g. with 3 engine hooks (C20_hooks_mix). Proved when it is full (0 or a power of two hooks, C20_full_iff), and for commands without own hooks."
  },
  {
   "property": "C24",
   "status": "proved",
   "theorems": [
    "Ddd.Waiting.C24_no_circular_wait",
    "Ddd.Waiting.C24_progress",
    "Ddd.Waiting.C24_nested_deadlock"
   ],
   "note": "Commands run from inside commands that hold locks can deadlock (C24_nested_deadlock); the property excludes them."
  },
  {
   "property": "C36",
   "status": "proved",
   "theorems": [
    "Ddd.Bus.C36_dispatch_effect",
    "Ddd.Bus.C36_histories",
    "Ddd.Bus.C36_dispatch_succeeds"
   ],
   "note": "Stated over Valid databases (primary/unique keys, counters); Valid is kept by every operation (valid_runOps). That dispatches interleaved with other statements do the same is part of the transition system used for C40."
  },
  {
   "property": "C37",
   "status": "partial",
   "theorems": [
    "Ddd.Bus.C37_per_statement_partial",
    "Ddd.Bus.C37_success_means_all",
    "Ddd.Bus.C37_not_atomic",
    "Ddd.Bus.C37_half_the_services",
    "Ddd.Bus.C37_lost_forever"
   ],
   "note": "False of the code: the inserts of Dispatch do not use the transaction opened for them. Proved: what holds at each crash point (events all or none, per service all or none), counterexamples, and that an event without record stays lost in every history."
  },
  {
   "property": "C38",
   "status": "partial",
   "theorems": [
    "Ddd.Bus.C38_begin_invisible",
    "Ddd.Bus.C38_invisible_until_commit",
    "Ddd.Bus.C38_rolled_back_partial",
    "Ddd.Bus.C38_commit_delivers",
    "Ddd.Bus.C38_committed_once_partial",
    "Ddd.Bus.C38_repeat_is_noop",
    "Ddd.Bus.C38_checkback",
    "Ddd.Bus.C38_checkback_not_due",
    "Ddd.Bus.C38_commit_crash_loses",
    "Ddd.Bus.C38_recommit_after_clean",
    "Ddd.Bus.C38_crash_then_clean",
    "Ddd.Bus.C38_commit_races_checkback",
    "Ddd.Bus.C38_commit_after_rollback",
    "Ddd.Bus.C38_checkback_error_loses"
   ],
   "note": "Proved for all histories of non-overlapping operations with crashes at every statement: invisible until commit, never visible after rollback, not stored again after a completed commit unless a client calls Commit again; six counterexamples show where the full property fails (crash inside Commit losing the events, crash inside Commit before the row is deleted so that a check-back after cleaning dispatches again, repeated Commit after cleaning, Commit overlapping the check-back, Commit after Rollback, swallowed error)."
  },
  {
   "property": "C39",
   "status": "proved",
   "theorems": [
    "Ddd.Bus.C39_window_start",
    "Ddd.Bus.C39_no_start",
    "Ddd.Bus.C39_right_work",
    "Ddd.Bus.C39_pairing_race"
   ],
   "note": "For a scan whose statements see one database state; the records and their events are read by two statements, and a cleaning in between can pair records with foreign events (C39_pairing_race)."
  },
  {
   "property": "C43",
   "status": "proved",
   "theorems": [
    "Ddd.Bus.C43_panic_is_failure",
    "Ddd.Bus.C43_others_unaffected",
    "Ddd.Bus.C43_panic_retries"
   ],
   "note": ""
  },
  {
   "property": "C45",
   "status": "proved",
   "theorems": [
    "Ddd.Bus.C45_laxFifo_waits",
    "Ddd.Bus.C45_laxFifo_ready"
   ],
   "note": ""
  },
  {
   "property": "C47",
   "status": "proved",
   "theorems": [
    "Ddd.Bus.C47_clean_isolated",
    "Ddd.Bus.C47_run_isolated"
   ],
   "note": ""
  },
  {
   "property": "C48",
   "status": "proved",
   "theorems": [
    "Ddd.Bus.C48_clean_exact",
    "Ddd.Bus.C48_any_batches",
    "Ddd.Bus.C48_survive"
   ],
   "note": ""
  },
  {
   "property": "C49",
   "status": "partial",
   "theorems": [
    "Ddd.Bus.C49_starvation",
    "Ddd.Bus.C49_fitting_partial"
   ],
   "note": "False of the code: LimitPerRun blocked FIFO events starve every later event (C49_starvation). Proved when the blocked backlog fits in one run."
  },
  {
   "property": "C50",
   "status": "proved",
   "theorems": [
    "Ddd.Bus.C50_one_run",
    "Ddd.Bus.C50_run_reduces",
    "Ddd.Bus.C50_progress",
    "Ddd.Bus.C50_finished"
   ],
   "note": ""
  },
  {
   "property": "C40",
   "status": "partial",
   "theorems": [
    "Ddd.Bus.C40_no_loss_partial",
    "Ddd.Bus.C40_no_loss_limit_partial",
    "Ddd.Bus.C40_removed_after_success_partial",
    "Ddd.Bus.C40_own_event_partial",
    "Ddd.Bus.C40_lost",
    "Ddd.Bus.C40_dangling"
   ],
   "note": "Proved for all interleavings, stale copies and crashes of any number of dispatchers, workers and cleaners, assuming that the events of records a scan has read are still there when it reads them; without this the property is false of the code (C40_lost). C40_dangling: a cleaning during a dispatch leaves a pending record without event."
  },
  {
   "property": "C41",
   "status": "proved",
   "theorems": [
    "Ddd.Bus.C41_limit",
    "Ddd.Bus.C41_custom",
    "Ddd.Bus.C41_pending",
    "Ddd.Bus.C41_too_many"
   ],
   "note": "When workers do not overlap (policy fresh) and no process dies between the return of a handler and the commit of the outcome (lossless). C41_too_many shows the first assumption is needed."
  },
  {
   "property": "C42",
   "status": "partial",
   "theorems": [
    "Ddd.Bus.C42_not_before_next",
    "Ddd.Bus.C42_interval_partial",
    "Ddd.Bus.C42_custom_partial",
    "Ddd.Bus.C42_too_early"
   ],
   "note": "False of the code when workers overlap (C42_too_early: the stale copy of another worker is handled at once); proved when they do not. In all of them up to the amount a clock is ahead (Pol.ahead, 0 for right clocks; C118)."
  },
  {
   "property": "C44",
   "status": "partial",
   "theorems": [
    "Ddd.Bus.C44_fifo_waits",
    "Ddd.Bus.C44_fifo_ready",
    "Ddd.Bus.C44_no_sender",
    "Ddd.Bus.C44_in_order_partial",
    "Ddd.Bus.C44_no_gaps_partial",
    "Ddd.Bus.C44_dispatch_race",
    "Ddd.Bus.C44_expired_gap"
   ],
   "note": "First part proved for all states. Order without gaps proved for all interleavings under InOrder (dispatches of the sender do not overlap, nothing leaves the window unhandled, no cleaning during a dispatch) and without manual expiry; counterexamples without."
  },
  {
   "property": "C46",
   "status": "partial",
   "theorems": [
    "Ddd.Bus.C46_not_again_partial",
    "Ddd.Bus.C46_handled_twice",
    "Ddd.Bus.C46_success_forgotten"
   ],
   "note": "False of the code when workers overlap (the second check looks at the worker's own copy): two counterexamples. Proved when no worker acts on a stale copy."
  },
  {
   "property": "C51",
   "status": "proved",
   "theorems": [
    "Ddd.MemBus.C51_order",
    "Ddd.MemBus.C51_capacity",
    "Ddd.MemBus.C51_call_order",
    "Ddd.MemBus.C51_call_handled",
    "Ddd.MemBus.C51_returned",
    "Ddd.MemBus.C51_handled_given",
    "Ddd.MemBus.C51_serial",
    "Ddd.MemBus.C51_accounted",
    "Ddd.MemBus.C51_flow",
    "Ddd.MemBus.C51_progress",
    "Ddd.MemBus.C51_blocks"
   ],
   "note": "For all interleavings of any number of Dispatch calls and the consumer."
  },
  {
   "property": "C52",
   "status": "proved",
   "theorems": [
    "Ddd.Timer.C52_only_due",
    "Ddd.Timer.C52_once_not_early",
    "Ddd.Timer.C52_cron_not_early"
   ],
   "note": "The time is the one stored: the datetime column rounds to whole seconds, so a RunOnce can fire up to half a second early (rounding_fires_early)."
  },
  {
   "property": "C53",
   "status": "proved",
   "theorems": [
    "Ddd.Timer.C53_once",
    "Ddd.Timer.C53_count",
    "Ddd.Timer.C53_stays",
    "Ddd.Timer.C53_again"
   ],
   "note": ""
  },
  {
   "property": "C54",
   "status": "proved",
   "theorems": [
    "Ddd.Timer.C54_next",
    "Ddd.Timer.C54_consecutive",
    "Ddd.Timer.C54_increasing"
   ],
   "note": "For satisfiable expressions; an accepted expression that never matches fires at every poll (unsatisfiable_fires_always)."
  },
  {
   "property": "C55",
   "status": "partial",
   "theorems": [
    "Ddd.Timer.C55_refused",
    "Ddd.Timer.C55_existing_partial",
    "Ddd.Timer.C55_new",
    "Ddd.Timer.C55_unique",
    "Ddd.Timer.C55_stable",
    "Ddd.Timer.C55_other_service"
   ],
   "note": "Proved for single calls with nonempty keys, and uniqueness and stability for all histories. Full property false: empty keys are ignored (empty_key_ignored), an empty cron expression is not refused (empty_cron_fires_once), overlapping calls may get a duplicate error (register_race), a key of another service cannot be used (C55_other_service)."
  },
  {
   "property": "C56",
   "status": "partial",
   "theorems": [
    "Ddd.Timer.C56_partial",
    "Ddd.Timer.C56_empty",
    "Ddd.Timer.C56_never_again"
   ],
   "note": "False of the code: Cancel removes the job with the key whatever its service (cancel_other_service). Proved: exactly the jobs with the key go, and are never called again."
  },
  {
   "property": "C63",
   "status": "proved",
   "theorems": [
    "Ddd.Timer.C63_exclusive"
   ],
   "note": ""
  },
  {
   "property": "C64",
   "status": "proved",
   "theorems": [
    "Ddd.Timer.C64_poll",
    "Ddd.Timer.C64_drained",
    "Ddd.Timer.C64_can_run"
   ],
   "note": ""
  },
  {
   "property": "C57",
   "status": "partial",
   "theorems": [
    "Ddd.Diff.C57_no_column_missed_partial",
    "Ddd.Diff.C57_embedded_pointer_lost",
    "Ddd.Diff.C57_embedded_pointer_cleared",
    "Ddd.Diff.C57_anonymous_one_column_lost",
    "Ddd.Diff.C57_same_name_lost",
    "Ddd.Diff.C57_nil_snapshot_skips",
    "Ddd.Diff.C58_changed_written_partial",
    "Ddd.Diff.C58_mirror_partial"
   ],
   "note": "Proved for all values of one type when embedded pointers do not change between nil and non-nil and gorm spreads exactly the structs the code takes apart. Without these hypotheses the English claim is false: theorems give an embedded pointer set or cleared, an anonymous one-column struct, equal field names under different prefixes, a nil snapshot model."
  },
  {
   "property": "C58",
   "status": "partial",
   "theorems": [
    "Ddd.Diff.C58_unchanged_iff",
    "Ddd.Diff.C58_unchanged_no_sql_partial",
    "Ddd.Diff.C58_listed_changed_partial",
    "Ddd.Diff.C58_changed_written_partial",
    "Ddd.Diff.C58_others_kept_partial",
    "Ddd.Diff.C58_mirror_partial",
    "Ddd.Diff.C58_disjoint_updates",
    "Ddd.Diff.C58_all_rows",
    "Ddd.Diff.C58_other_rows",
    "Ddd.Diff.C58_missing_row",
    "Ddd.Diff.C58_save_overwrites",
    "Ddd.Diff.C58_insert",
    "Ddd.Diff.C58_delete",
    "Ddd.Diff.C58_unexported_slice_always_written",
    "Ddd.Diff.C58_nan_always_written"
   ],
   "note": "Exact condition for \"unchanged, no SQL\" (every value can be compared with itself); false for non-UTC times and NaN. Column-wise effect for every concurrent content of the row. Hypotheses as for C57 plus unambiguous field names."
  },
  {
   "property": "C59",
   "status": "proved",
   "theorems": [
    "Ddd.Children.C59_own",
    "Ddd.Children.C59_groups",
    "Ddd.Children.C59_keys_by_type",
    "Ddd.Children.C59_keys_once",
    "Ddd.Children.C59_panics_iff",
    "Ddd.Children.C59_emptied_is_deleted",
    "Ddd.Children.C59_own_must_list"
   ],
   "note": "For every struct layout and all field values. The exact panic condition is a theorem (entity interface implemented by a struct value, nil interface in a list). C59_own_must_list: an own GetChildren that omits an empty group hides deletions. Children inside structs embedded by value are not found (they are not fields of the entity itself)."
  },
  {
   "property": "C03",
   "status": "proved",
   "theorems": [
    "Ddd.C03_mirror",
    "Ddd.C03_mirror_hooks",
    "Ddd.C03_effect",
    "Ddd.C03_replaced_by_same_id"
   ],
   "note": "Over an executor applying writes literally (Spec/Store: an insert of an existing key fails, an update of a missing row does nothing). Hypotheses: the model is a function of entity and parent, entities in one place, distinct keys, store in sync with the snapshots before, keys of stored entities unchanged, undirty entities unchanged. With hooks the objects are taken at conversion time. C03_replaced_by_same_id shows the key hypothesis is needed."
  },
  {
   "property": "C65",
   "status": "partial",
   "theorems": [
    "Ddd.C65_untracked_inserted",
    "Ddd.C65_add_inserted_partial",
    "Ddd.C65_add_in_repository",
    "Ddd.C65_load_loses",
    "Ddd.C65_add_then_get_lost",
    "Ddd.C65_add_then_remove_lost",
    "Ddd.C65_new_grandchild_lost"
   ],
   "note": "For every history: what has no snapshot at the save is inserted (C65_untracked_inserted); what is added without misuse is inserted if no root is loaded before the save (C65_add_inserted_partial). The English claim is false with a load in between, for every program: C65_load_loses; further theorems give Add then Get, Add then Remove of an unknown root, and a new child with its own new child followed by Get. Hypothesis: the executor builds a query model for every entity (LoadsModels)."
  },
  {
   "property": "C66",
   "status": "partial",
   "theorems": [
    "Ddd.C66_tracked_roots_recorded",
    "Ddd.C66_removed_deleted_partial",
    "Ddd.C66_remove_from_repository",
    "Ddd.C66_added_then_removed_silent",
    "Ddd.C66_load_loses",
    "Ddd.C66_remove_then_get_lost",
    "Ddd.C66_two_removes_lost"
   ],
   "note": "What is removed without misuse is deleted if no root is loaded before the save; what was only added and is gone again is not written. The English claim is false with a load in between, for every program: C66_load_loses; further theorems give Remove then Get, and two Remove calls of unknown roots. The invariant C66_tracked_roots_recorded is for programs that do not call RootContainer.Add on a tracked entity."
  },
  {
   "property": "C67",
   "status": "proved",
   "theorems": [
    "Ddd.Load.C67_build",
    "Ddd.Load.C67_parent_by_id",
    "Ddd.Load.C67_not_found",
    "Ddd.Load.C67_found_iff",
    "Ddd.Load.C67_again_duplicates",
    "Ddd.Load.C67_set_fields_restrict",
    "Ddd.Load.C67_stale_pointer_cleared",
    "Ddd.Load.C67_other_slices_panic",
    "Ddd.C67_needs_id",
    "Ddd.C67_unregistered",
    "Ddd.C67_command_needs_id",
    "Ddd.C67_command_asks"
   ],
   "note": "For a database that answers each query from one store (Reads) and converters that do not themselves answer \"not found\" (Honest), with arguments that name existing, distinct objects and variables (Apart). \"The rows its query selects\" are those equal in every non-zero column of the query model (gorm Where with a struct). Consequences shown by theorems: loading twice duplicates the slice, set fields of the entity restrict the query, a child pointer to an old object is cleared, slices of values or interfaces panic."
  },
  {
   "property": "C68",
   "status": "proved",
   "theorems": [
    "Ddd.C68_saved_is_loaded",
    "Ddd.C68_saved_is_found"
   ],
   "note": "Composition of C03 (save) and C67 (load): hypotheses of both, plus: the foreign key tells the parent apart, the store held no rows below the entity the save did not know of, the converter queries by ID/foreign key and restores identifier and data."
  },
  {
   "property": "C69",
   "status": "proved",
   "theorems": [
    "Ddd.C69_not_in_between",
    "Ddd.C69_one_after_the_other",
    "Ddd.C69_hooks_overlap",
    "Ddd.C69_needs_exclusive"
   ],
   "note": "the locker is assumed exclusive (C25 says when the DB lock is); PostSave hooks are shown to be outside; without an exclusive locker commands overlap"
  },
  {
   "property": "C70",
   "status": "proved",
   "theorems": [
    "Ddd.Tx.C70_not_committed_never_happened",
    "Ddd.Tx.C70_other_context_survives"
   ],
   "note": "about calls made with the context returned by Begin; a write made with another context (repo.Save(context.Background())) is shown to survive the rollback"
  },
  {
   "property": "C71",
   "status": "proved",
   "theorems": [
    "Ddd.Tx.C71_committed_at_once"
   ],
   "note": ""
  },
  {
   "property": "C72",
   "status": "partial",
   "theorems": [
    "Ddd.Tx.C72_reads_own_writes",
    "Ddd.Tx.C72_other_executors_partial",
    "Ddd.Tx.C72_nested",
    "Ddd.Tx.C72_errors",
    "Ddd.Tx.C72_same_second_mixes",
    "Ddd.Tx.C72_nested_survives"
   ],
   "note": "false for executors created in the same second (C72_same_second_mixes): they share the context key; proved for different keys. Nested transactions are independent of, not part of, the outer one (C72_nested_survives)"
  },
  {
   "property": "C73",
   "status": "proved",
   "theorems": [
    "Ddd.C73_committed_commands_only",
    "Ddd.C73_published_nothing_else"
   ],
   "note": "all writes of a command are made with the context given to Main"
  },
  {
   "property": "C74",
   "status": "proved",
   "theorems": [
    "Ddd.Redis.C74_mutual_exclusion",
    "Ddd.Redis.C74_granted_when_free",
    "Ddd.Redis.C74_kept",
    "Ddd.Redis.C74_exclusive_for_commands",
    "Ddd.Redis.C74_beyond_lease"
   ],
   "note": "within the lease, as stated; beyond it two clients can hold the key (C74_beyond_lease): there is no renewal. Tokens of different calls of Lock are assumed different"
  },
  {
   "property": "C75",
   "status": "proved",
   "theorems": [
    "Ddd.Redis.C75_release"
   ],
   "note": ""
  },
  {
   "property": "C76",
   "status": "proved",
   "theorems": [
    "Ddd.Redis.C76_bounded_retry",
    "Ddd.Redis.C76_free_is_obtained"
   ],
   "note": ""
  },
  {
   "property": "C77",
   "status": "proved",
   "theorems": [
    "Ddd.Lock.C77_database_lock_exclusive",
    "Ddd.C77_serial_on_database_lock",
    "Ddd.C77_serial_on_redis_lock"
   ],
   "note": "the assumption on leases is needed: C25_renewal_race, C74_beyond_lease"
  },
  {
   "property": "C78",
   "status": "proved",
   "theorems": [
    "Ddd.C78_alone",
    "Ddd.C78_unchanging",
    "Ddd.C78_reads"
   ],
   "note": "all writes of a command are made with the context given to Main"
  },
  {
   "property": "C79",
   "status": "proved",
   "theorems": [
    "Ddd.Consumer.C79_registration",
    "Ddd.Consumer.C79_registered",
    "Ddd.Consumer.C79_delivery",
    "Ddd.Consumer.C79_handled_iff",
    "Ddd.Consumer.C79_effects",
    "Ddd.Consumer.C79_failed_not_committed",
    "Ddd.Consumer.C79_succeeded_committed"
   ],
   "note": "handlers of the type are command handlers; the database is used by these deliveries alone"
  },
  {
   "property": "C80",
   "status": "partial",
   "theorems": [
    "Ddd.Consumer.C80_at_most_once_partial",
    "Ddd.Consumer.C80_two_handlers",
    "Ddd.Consumer.C80_late_panic"
   ],
   "note": "False of the code with two handlers for a type (the first commits again when the second fails), with a panic after the commit, with overlapping workers (C46_handled_twice), and if the process dies before the outcome is saved. Proved without these."
  },
  {
   "property": "C81",
   "status": "partial",
   "theorems": [
    "Ddd.Bus.C81_recorded",
    "Ddd.Bus.C81_delivered_partial"
   ],
   "note": "that the records are stored when Dispatch returns nil is proved in full; what becomes of them later is false of the code without the calm assumption of C40 (C40_lost)"
  },
  {
   "property": "C82",
   "status": "proved",
   "theorems": [
    "Ddd.Cron.C82_registration",
    "Ddd.Cron.C82_refused_blocks",
    "Ddd.Cron.C82_poll"
   ],
   "note": "sequential registrations; a panicking callback ends the process"
  },
  {
   "property": "C83",
   "status": "proved",
   "theorems": [
    "Ddd.Config.C83_engines",
    "Ddd.Config.C83_run",
    "Ddd.Config.C83_callbacks"
   ],
   "note": "sequential calls (overlapping runs: C20); Option implementations written by the user are not modelled"
  },
  {
   "property": "C84",
   "status": "partial",
   "theorems": [
    "Ddd.C84_output",
    "Ddd.C84_unclean",
    "Ddd.C84_actions_performed",
    "Ddd.C84_actions_all_partial",
    "Ddd.C84_commit_failed",
    "Ddd.C84_ignored_error"
   ],
   "note": "that Actions lists all writes of a successful command is false when the code ignores the error of a save (C84_ignored_error); proved when no write failed. Hooks that modify the Result are not modelled"
  },
  {
   "property": "C85",
   "status": "partial",
   "theorems": [
    "Ddd.C85_untouched_partial",
    "Ddd.C85_again",
    "Ddd.C85_create_delete"
   ],
   "note": "that the framework itself changes nothing but empty IDs and dirty flags is proved in full; that an event is dispatched by one command only is false when the entity object is used in two commands (C85_again, C85_create_delete)"
  },
  {
   "property": "C86",
   "status": "partial",
   "theorems": [
    "Ddd.C86_repeats",
    "Ddd.C86_example"
   ],
   "note": "false of the code: do ends with persist without flush, so Commit in PostSave repeats all writes of the final save (proved for commands without entity hooks and recursive delete)"
  },
  {
   "property": "C87",
   "status": "proved",
   "theorems": [
    "Ddd.Kinds.C87_icommand",
    "Ddd.Kinds.C87_main_ignored",
    "Ddd.Kinds.C87_main",
    "Ddd.Kinds.C87_func",
    "Ddd.Kinds.C87_invalid",
    "Ddd.Kinds.C87_create_delete",
    "Ddd.Kinds.C87_init_inert"
   ],
   "note": "Main of a value that also has the four ICommand methods is ignored, as stated; a value whose Main uses the agent panics since SetStage is called for ICommand only (noAgent)"
  },
  {
   "property": "C88",
   "status": "partial",
   "theorems": [
    "Ddd.Kinds.C88_phases_partial",
    "Ddd.Kinds.C88_act_start",
    "Ddd.Kinds.C88_build_changes_not_saved",
    "Ddd.Kinds.C88_build_changes_lost"
   ],
   "note": "the order of the phases, the check of the roots and what Act starts from are proved in full; that changes made in Build are saved too is false of the code (C88_build_changes_lost; in general C88_build_changes_not_saved)"
  },
  {
   "property": "C89",
   "status": "proved",
   "theorems": [
    "Ddd.Pool.C89_pool",
    "Ddd.Pool.C89_complete",
    "Ddd.Pool.C89_waits",
    "Ddd.Pool.C89_progress",
    "Ddd.Pool.C89_terminates",
    "Ddd.Pool.C89_returns",
    "Ddd.Pool.C89_no_workers",
    "Ddd.Pool.C89_sequential",
    "Ddd.Pool.C89_others_go_on",
    "Ddd.Pool.C89_bus_sequential",
    "Ddd.Pool.C89_bus_any_schedule",
    "Ddd.Pool.C89_fifo_delayed"
   ],
   "note": "for ordered (FIFO) events the schedule does matter: C89_fifo_delayed. handleEvent is two atomic halves; finer interleavings with other instances are in the transition system of C40-C46"
  },
  {
   "property": "C90",
   "status": "partial",
   "theorems": [
    "Ddd.BusLife.C90_accepts_partial",
    "Ddd.BusLife.C90_default_retry",
    "Ddd.BusLife.C90_strategy_first",
    "Ddd.BusLife.C90_interval",
    "Ddd.BusLife.C90_custom",
    "Ddd.BusLife.C90_limit_ignored",
    "Ddd.BusLife.C90_interval_alone",
    "Ddd.BusLife.C90_unchecked"
   ],
   "note": "which options are accepted and which strategy results is proved in full; that each option is honoured and each accepted configuration works is false (C90_limit_ignored, C90_interval_alone, C90_unchecked with C91_dead_at_start and C89_no_workers)"
  },
  {
   "property": "C91",
   "status": "partial",
   "theorems": [
    "Ddd.BusLife.C91_start_once",
    "Ddd.BusLife.C91_only_checker_kills_partial",
    "Ddd.BusLife.C91_dead_at_start",
    "Ddd.BusLife.C91_poison",
    "Ddd.BusLife.C91_unregistered"
   ],
   "note": "single start and survival of handler outcomes proved (for strategies that do not panic, else C115); false of the code for panicking transaction checkers (C91_poison: a crash loop) and failed registration (C91_unregistered: the repair code is dead)"
  },
  {
   "property": "C92",
   "status": "partial",
   "theorems": [
    "Ddd.C92_fate",
    "Ddd.C92_atomic_partial",
    "Ddd.C92_handover",
    "Ddd.C92_checkback_delivers_partial",
    "Ddd.C92_told_means_stored_partial",
    "Ddd.C92_possible"
   ],
   "note": "missing: a Commit of the bus interrupted between its statements loses events (C38_commit_crash_loses), so Commit is executed completely or not at all in the stories; cleaning does not remove the events while the command is still running"
  },
  {
   "property": "C93",
   "status": "proved",
   "theorems": [
    "Ddd.LockRun.C93_story",
    "Ddd.LockRun.C93_zero_interval"
   ],
   "note": ""
  },
  {
   "property": "C94",
   "status": "partial",
   "theorems": [
    "Ddd.LockRun.C94_accepted",
    "Ddd.LockRun.C94_no_overlap_partial",
    "Ddd.LockRun.C94_demo",
    "Ddd.LockRun.C94_equal_interval"
   ],
   "note": "false without bounds on delays, and with ttl = renew interval, which NewDBLock accepts (C94_equal_interval: two callbacks at once with no delays at all). Proved: if everything due is done within d, d < interval and interval + 3d < ttl, callbacks whose contexts are not done do not overlap"
  },
  {
   "property": "C95",
   "status": "partial",
   "theorems": [
    "Ddd.LockRun.C95_told_iff_partial",
    "Ddd.LockRun.C95_overtaken",
    "Ddd.LockRun.C95_goroutine_left",
    "Ddd.LockRun.C95_cancelled_keeps_row",
    "Ddd.LockRun.C95_cancelled_locked"
   ],
   "note": "the last sentence is false of the code: the goroutine waits on the channel of the stopped ticker for ever unless a renewal failed (C95_told_iff_partial, C95_goroutine_left), and after the caller cancelled its context the row stays although Run returns nil (C95_cancelled_keeps_row, C95_cancelled_locked)"
  },
  {
   "property": "C96",
   "status": "proved",
   "theorems": [
    "Ddd.Example.C96_total",
    "Ddd.Example.C96_history",
    "Ddd.Example.C96_exact",
    "Ddd.Example.C96_dirty",
    "Ddd.Example.C96_new",
    "Ddd.Example.C96_accepts",
    "Ddd.Example.C96_stale"
   ],
   "note": "C96_stale: after a call that returned an error the total may be stale (the coupons were already filtered)."
  },
  {
   "property": "C97",
   "status": "partial",
   "theorems": [
    "Ddd.Example.C97_valid_partial",
    "Ddd.Example.C97_refused",
    "Ddd.Example.C97_asked",
    "Ddd.Example.C97_minimum"
   ],
   "note": "Proved for rule engines that look at the lines only. False for an engine that looks at the total: fixCoupons runs before calPrice, so coupons are checked against the old total (C97_minimum)."
  },
  {
   "property": "C98",
   "status": "partial",
   "theorems": [
    "Ddd.Example.C98_stored_partial",
    "Ddd.Example.C98_add_item",
    "Ddd.Example.C98_add_coupon",
    "Ddd.Example.C98_orphans",
    "Ddd.Example.C98_query",
    "Ddd.Example.C98_events",
    "Ddd.Example.C98_demo"
   ],
   "note": "True while nothing is added to an existing order. AddSaleItem and AddCoupon load the order without its children, so the stored total is overwritten by that of the new line or coupon alone (exact condition in C98_add_item, C98_add_coupon); the query looks for lines with the wrong column and answers none; deleting leaves the rows below; coupon events carry the type of line events."
  },
  {
   "property": "C99",
   "status": "partial",
   "theorems": [
    "Ddd.TimerLife.C99_accepts",
    "Ddd.TimerLife.C99_start_once",
    "Ddd.TimerLife.C99_kills",
    "Ddd.TimerLife.C99_survives_partial",
    "Ddd.TimerLife.C99_others_partial",
    "Ddd.TimerLife.C99_dead_at_start",
    "Ddd.TimerLife.C99_poison"
   ],
   "note": "The last sentence is false for a callback that panics: the process ends at it after every restart and no job registered later is called (C99_poison); an interval that is not positive is accepted and ends the process at Start (C99_dead_at_start)."
  },
  {
   "property": "C100",
   "status": "partial",
   "theorems": [
    "Ddd.BusCtx.C100_own_partial",
    "Ddd.BusCtx.C100_local",
    "Ddd.BusCtx.C100_none",
    "Ddd.BusCtx.C100_begun",
    "Ddd.BusCtx.C100_dispatch_inside",
    "Ddd.BusCtx.C100_same_second"
   ],
   "note": "Holds between buses created in different seconds. False for buses created in the same second, which share their context keys (C100_same_second), and for Dispatch with the context of an open transaction, after which Commit returns nil without publishing the transaction's events (C100_dispatch_inside)."
  },
  {
   "property": "C101",
   "status": "partial",
   "theorems": [
    "Ddd.NewEvent.C101_fields_partial",
    "Ddd.NewEvent.C101_send_type",
    "Ddd.NewEvent.C101_send_time_lost",
    "Ddd.NewEvent.C101_delay_at_once"
   ],
   "note": "The delay is false: SendTime is never copied into the event and SendTypeDelay is handled as a normal event (C101_send_time_lost, C101_delay_at_once)."
  },
  {
   "property": "C102",
   "status": "proved",
   "theorems": [
    "Ddd.Bus.C102_execution",
    "Ddd.Bus.C102_once",
    "Ddd.Bus.C102_calls",
    "Ddd.Bus.C102_bounded",
    "Ddd.Bus.C102_no_loss",
    "Ddd.Bus.C102_backoff"
   ],
   "note": "a run does not die between the return of a handler and the commit of its outcome (then the handler is called again)"
  },
  {
   "property": "C103",
   "status": "proved",
   "theorems": [
    "Ddd.Bus.C103_events_kept",
    "Ddd.Bus.C103_removed",
    "Ddd.Bus.C103_calm",
    "Ddd.Bus.C103_no_loss",
    "Ddd.Bus.C103_removed_handled"
   ],
   "note": "the condition on slow dispatches and scans is part of the statement; without it see C40_dangling and C40_lost. Age is up to the amount a clock is ahead (Pol.ahead, 0 for right clocks; C118)"
  },
  {
   "property": "C104",
   "status": "proved",
   "theorems": [
    "Ddd.Bus.C104_prefix",
    "Ddd.Bus.C104_next"
   ],
   "note": "the circumstances are part of the statement; C44_dispatch_race and C44_expired_gap show what happens outside them"
  },
  {
   "property": "C105",
   "status": "proved",
   "theorems": [
    "Ddd.C105_genuine",
    "Ddd.C105_determined"
   ],
   "note": "the vocabulary is Spec/Answers.lean"
  },
  {
   "property": "C106",
   "status": "partial",
   "theorems": [
    "Ddd.Router.C106_no_edits",
    "Ddd.Router.C106_seen",
    "Ddd.Router.C106_own_types_partial",
    "Ddd.Router.C106_not_isolated"
   ],
   "note": "False as stated (C106_not_isolated); C106_seen says exactly what each handler is given, C106_own_types_partial and C106_no_edits when the claim holds."
  },
  {
   "property": "C107",
   "status": "partial",
   "theorems": [
    "Ddd.MemBus.C107_bus",
    "Ddd.MemBus.C107_forever",
    "Ddd.MemBus.C107_standstill",
    "Ddd.MemBus.C107_unbuffered",
    "Ddd.MemBus.C107_room_partial",
    "Ddd.MemBus.C107_only"
   ],
   "note": "False as stated (C107_standstill, for every capacity); C107_only and C107_forever give the exact condition, C107_room_partial a sufficient one (everything under way fits into the channel)."
  },
  {
   "property": "C108",
   "status": "partial",
   "theorems": [
    "Ddd.C108_no_effect",
    "Ddd.Kinds.C108_goes_on"
   ],
   "note": "False as documented (C108_goes_on); C108_no_effect is the true statement: with or without the calls of Output the external calls, objects, errors, break flag and reported actions are the same, for every command and environment."
  },
  {
   "property": "C109",
   "status": "partial",
   "theorems": [
    "Ddd.Again.C109_not_begun_partial",
    "Ddd.Again.C109_failed_commit",
    "Ddd.Again.C109_like_any",
    "Ddd.Again.C109_repeats",
    "Ddd.Again.C109_not_again"
   ],
   "note": "False as stated (C109_not_again, C109_failed_commit for every continuation, C109_repeats for every successful Save without entity hooks and recursive delete); C109_not_begun_partial is the case in which it holds, C109_like_any says what a Save of a used stage is as long as no Commit has failed."
  },
  {
   "property": "C110",
   "status": "partial",
   "theorems": [
    "Ddd.SharedCmd.C110_last_started",
    "Ddd.SharedCmd.C110_own_iff_partial",
    "Ddd.SharedCmd.C110_output",
    "Ddd.SharedCmd.C110_crossed"
   ],
   "note": "False as stated (C110_crossed); C110_last_started says exactly which stage a call acts on, C110_own_iff_partial that the claim holds exactly for the histories without overlap, C110_output what the results then contain."
  },
  {
   "property": "C111",
   "status": "partial",
   "theorems": [
    "Ddd.Keys.C111_exec",
    "Ddd.Keys.C111_run_partial",
    "Ddd.Keys.C111_update_iff",
    "Ddd.Keys.C111_delete_iff",
    "Ddd.Keys.C111_lost",
    "Ddd.Keys.C111_auto_key",
    "Ddd.Keys.C111_zero_line"
   ],
   "note": "False as stated (C111_auto_key, C111_zero_line, C111_lost). C111_run_partial proves it for all sequences of actions whose models have their key fields set and whose GetID is the key; C111_update_iff and C111_delete_iff are the exact conditions."
  },
  {
   "property": "C112",
   "status": "partial",
   "theorems": [
    "Ddd.Lock.Skew.C112_exclusive_partial",
    "Ddd.Lock.Skew.C112_still_there",
    "Ddd.Lock.Skew.C112_expires",
    "Ddd.Lock.Skew.C112_margin",
    "Ddd.Lock.Skew.C112_skewed",
    "Ddd.Lock.Skew.C112_two_leases"
   ],
   "note": "False as stated (C112_skewed, C112_two_leases). C112_exclusive_partial proves it with the margin 2d below the smallest lease time for all clocks off by at most d; C112_margin shows that the margin cannot be smaller; C112_expires that a dead client's lock is given up after lease time + d."
  },
  {
   "property": "C113",
   "status": "partial",
   "theorems": [
    "Ddd.Depth.C113_walk_iff",
    "Ddd.Depth.C113_walk_returns_partial",
    "Ddd.Depth.C113_diff_iff",
    "Ddd.Depth.C113_delete_iff",
    "Ddd.Depth.C113_changes_endless",
    "Ddd.Depth.C113_changes_iff",
    "Ddd.Depth.C113_cycle_iff",
    "Ddd.Depth.C113_back_pointer",
    "Ddd.Depth.C113_graph_iff",
    "Ddd.Depth.C113_same"
   ],
   "note": "False as stated (C113_back_pointer). The exact condition is proved for walk, entityDiff, recursiveDelete and getEntityChanged; C113_graph_iff shows that the graphs of all other claims are exactly those on which the code comes back, and C113_same that both models agree on them."
  },
  {
   "property": "C114",
   "status": "partial",
   "theorems": [
    "Ddd.BusMsg.C114_stored_iff",
    "Ddd.BusMsg.C114_not_stored",
    "Ddd.BusMsg.C114_binary",
    "Ddd.BusMsg.C114_same_partial",
    "Ddd.BusMsg.C114_never_counted",
    "Ddd.BusMsg.C114_called_again"
   ],
   "note": "False as stated: the text is cut at byte 65535, which may split a character (C114_not_stored), and a strict utf8mb4 column refuses it, as it refuses a text that is not UTF-8 (C114_binary); the error of Save then rolls the transaction back. C114_never_counted: such a delivery stays exactly as it was through any history, C114_called_again: and its handler is called in every pass, for ever, without pause. C114_same_partial: if the database takes all the texts, passes are those of Model/Bus (for which C41 and C42 count). C114_stored_iff: exactly which texts are taken."
  },
  {
   "property": "C115",
   "status": "partial",
   "theorems": [
    "Ddd.BusMsg.C115_survives_partial",
    "Ddd.BusMsg.C115_dies",
    "Ddd.BusMsg.C115_blocks",
    "Ddd.BusMsg.C115_stuck"
   ],
   "note": "True for handlers (C115_survives_partial: if the strategy does not panic the process survives, whatever the handlers do). False for strategies: doRetryStrategy is called in the deferred function after recover (again, if the first panic was its own), in a goroutine of its own, so nothing recovers it. C115_dies: the process ends. C115_blocks, C115_stuck: nothing was stored, so after a restart the same event kills the process again, and no later event of the service is handled, until the event leaves the 24 hour window."
  },
  {
   "property": "C116",
   "status": "partial",
   "theorems": [
    "Ddd.Startup.C116_handled_partial",
    "Ddd.Startup.C116_lost",
    "Ddd.Startup.C116_lost_forever",
    "Ddd.Startup.C116_dies",
    "Ddd.Startup.C116_rolled_back"
   ],
   "note": "False without the condition that at every tick the engine exists and all registrations are made: a tick between NewEngine and a registration marks due deliveries of the type as handled without calling anything, for good (C116_lost, C116_lost_forever); it rolls overdue transactions back unasked (C116_rolled_back); a tick before NewEngine with an overdue transaction ends the process (C116_dies). One consumer, ticks at one moment."
  },
  {
   "property": "C117",
   "status": "partial",
   "theorems": [
    "Ddd.Cron.C117_called_partial",
    "Ddd.Cron.C117_lost",
    "Ddd.Cron.C117_lost_forever",
    "Ddd.Cron.C117_event_fires",
    "Ddd.Cron.C117_events_apart"
   ],
   "note": "Proved: if a handler is registered for the key the first one is called with every due job of the key (unless a callback panics); events of other types never call a task. False: without a handler a one-shot job is finished though nothing was called, for good (C117_lost, C117_lost_forever); an event published with the key as its type calls the task (C117_event_fires)."
  },
  {
   "property": "C118",
   "status": "partial",
   "theorems": [
    "Ddd.Bus.C118_backoff_partial",
    "Ddd.Bus.C118_retention_partial",
    "Ddd.Bus.C118_no_loss_partial",
    "Ddd.Bus.C118_early",
    "Ddd.Timer.C118_timer_early_partial",
    "Ddd.Timer.C118_timer_forward",
    "Ddd.Timer.C118_timer_sharp"
   ],
   "note": "'Not early' is false of the code: a host whose clock is ahead by a calls handlers, removes events and fires timers up to a early (C118_early, C118_timer_sharp: the bound is sharp). Back-off as in C42 without workers acting on stale copies, no loss as in C40, both for all clocks. The database lock is C112."
  },
  {
   "property": "C119",
   "status": "partial",
   "theorems": [
    "Ddd.Outer.C119_fate",
    "Ddd.Outer.C119_atomic_partial",
    "Ddd.Outer.C119_checkback_delivers_partial",
    "Ddd.Outer.C119_example_loses",
    "Ddd.Outer.C119_commit_error_loses",
    "Ddd.Outer.C119_always_commit"
   ],
   "note": "False of the code in three ways: the checker registered in the example is replaced by RegisterEventBus, so its check-back rolls back and loses the event of every committed transaction whose bus Commit did not happen (C119_example_loses); Handle rolls the bus back after a commit error although the commit may be durable (C119_commit_error_loses); where an always-TXCommit checker is in force, a crash before the database commit delivers an event for data that do not exist (C119_always_commit). Proved: both or neither with a truthful checker, without such a lost answer and with bus Commit undivided (C38_commit_crash_loses)."
  },
  {
   "property": "C120",
   "status": "partial",
   "theorems": [
    "Ddd.Outer.C120_in_force_partial",
    "Ddd.Outer.C120_checker_replaced",
    "Ddd.Outer.C120_handler_replaced"
   ],
   "note": "False of the code: RegisterEventBus, NewEngine and every Run/RunCommand of an engine with the bus replace both functions by the framework's; transactions of types without a checker at the framework are then rolled back and events without a handler at the framework count as handled. Proved: in force as long as none of these follows."
  },
  {
   "property": "C121",
   "status": "partial",
   "theorems": [
    "Ddd.Json.C121_roundtrip_partial",
    "Ddd.Json.C121_what_arrives",
    "Ddd.Json.C121_other_version",
    "Ddd.Json.C121_hidden_lost",
    "Ddd.Json.C121_bytes_lost",
    "Ddd.Json.C121_interface_changed",
    "Ddd.Json.C121_struct_changed",
    "Ddd.Json.C121_pointer_lost",
    "Ddd.Json.C121_empty_slice",
    "Ddd.Json.C121_monotonic_lost",
    "Ddd.Json.C121_not_finite",
    "Ddd.Json.C121_other_type",
    "Ddd.Json.C121_out_of_range",
    "Ddd.Json.C121_case"
   ],
   "note": "False of the code in general, since events travel as JSON: fields that are not exported arrive zero, bytes that are no UTF-8 as U+FFFD, numbers in interface fields as floats, structs there as maps, pointers to nil pointers as nil, empty slices with omitempty as nil, times without monotonic reading; an event with NaN can not be made (panic); a handler with an incompatible field is never called. Proved: exactly what arrives for every type and value (C121_what_arrives), that it is what was sent for all other types and values (C121_roundtrip_partial), and what handlers with another version of the type get (C121_other_version)."
  },
  {
   "property": "C122",
   "status": "partial",
   "theorems": [
    "Ddd.Fleet.C122_finished_by",
    "Ddd.Fleet.C122_handled_partial",
    "Ddd.Fleet.C122_old_instance",
    "Ddd.Fleet.C122_swallowed",
    "Ddd.Fleet.C122_check_back"
   ],
   "note": "False of the code: instances share the deliveries of their service, and an instance without a handler (or checker) for a type counts such events as handled (rolls such transactions back). So during a deployment events of a new type are swallowed by instances that still run the old program (C122_swallowed, C122_check_back; C122_old_instance for every state). Proved: whichever instance finishes a delivery called all its own handlers with success (C122_finished_by), hence a handler every instance has is always called (C122_handled_partial)."
  },
  {
   "property": "C123",
   "status": "partial",
   "theorems": [
    "Ddd.Chain.C123_effect_has_cause_partial",
    "Ddd.Chain.C123_effect_once_partial",
    "Ddd.Chain.C123_called_partial",
    "Ddd.Chain.C123_eventually_partial",
    "Ddd.Chain.C123_state",
    "Ddd.Chain.C123_history"
   ],
   "note": "Partial because the full claim is false of the code: bus Commit interrupted between its statements loses events (C38, C92), two handlers per type or a panic after the commit repeat the effect (C80), overlapping workers (C46). Assumed accordingly: bus Commit undivided, operations on the bus do not overlap (InTime), one command handler per event type, no late panic, no ErrBreak. That the handlers are called needs that the due work fits into a run, the event is in the window and not an ordered one (C49: otherwise a run may starve it)."
  },
  {
   "property": "C124",
   "status": "partial",
   "theorems": [
    "Ddd.Bus.C124_prefix_partial",
    "Ddd.Bus.C124_next_partial",
    "Ddd.Bus.C124_overtaken"
   ],
   "note": "Proved for events that come into the event table in the order of their creation. Without that it is false of the code (C124_overtaken): a transaction that is begun does not hold back later FIFO events of the same sender; if its client is slower, or dies and the check-back commits it, the later events are handled first."
  },
  {
   "property": "C125",
   "status": "partial",
   "theorems": [
    "Ddd.Timer.C125_kept",
    "Ddd.Timer.C125_once_called",
    "Ddd.Timer.C125_cron_called",
    "Ddd.Timer.C125_spent",
    "Ddd.Timer.C125_used_up",
    "Ddd.Timer.C125_reused_key_ignored"
   ],
   "note": "Proved in full for registrations that store a job. The first sentence is false of the code for a key that was used before: the row of a one-shot job stays in the table as finished (C125_spent), so that a later RunOnce or RunCron with the same key is answered with success, stores nothing (C125_reused_key_ignored) and the callback is never called for it (C125_used_up) unless the key is cancelled first."
  },
  {
   "property": "C126",
   "status": "partial",
   "theorems": [
    "Ddd.TimerLife.C126_due",
    "Ddd.TimerLife.C126_at_most_once_partial",
    "Ddd.TimerLife.C126_cron_partial",
    "Ddd.TimerLife.C126_exactly_once_partial"
   ],
   "note": "C126_due holds without assumptions on callbacks and the database. The rest assumes that callbacks do not panic and that saving works after a call; without these it is false of the code: the call is repeated (C53_again, C99_poison). That the call happens also assumes that rows can be locked."
  },
  {
   "property": "C127",
   "status": "partial",
   "theorems": [
    "Ddd.Nested.C127_no_circular_wait_partial",
    "Ddd.Nested.C127_progress_partial",
    "Ddd.Nested.C127_released",
    "Ddd.Nested.C127_own_key",
    "Ddd.Nested.C127_waits_for_itself",
    "Ddd.Nested.C127_only_refusal_helps"
   ],
   "note": "The release of all keys is proved for all commands. Freedom from deadlock is proved under the condition that every nested command only needs keys that come (in the sort order of runOnLock) after all keys held around it. Without it the claim is false of the code: two commands nested the other way round (C24_nested_deadlock), or a single command whose nested command needs a key of a command around it (C127_own_key, C127_waits_for_itself): locks belong to the call, not to the process, so it waits for itself until the service refuses (C127_only_refusal_helps)."
  },
  {
   "property": "C128",
   "status": "partial",
   "theorems": [
    "Ddd.TxRace.C128_only_if_decided",
    "Ddd.TxRace.C128_rolled_back",
    "Ddd.TxRace.C128_rolled_back_for_good",
    "Ddd.TxRace.C128_settled",
    "Ddd.TxRace.C128_commit_done",
    "Ddd.TxRace.C128_once_partial",
    "Ddd.TxRace.C128_two_commits",
    "Ddd.TxRace.C128_late_commit",
    "Ddd.TxRace.C128_cleaned_early",
    "Ddd.TxRace.C128_commit_after_rollback",
    "Ddd.TxRace.C128_done_then_asked"
   ],
   "note": "Everything except 'at most once' is proved without assumptions. 'At most once' is proved when clients call Commit at most once per context and insert before the transaction is due, and events are not cleaned while the row is in the table; each of the three assumptions is necessary (C128_two_commits, C128_late_commit, C128_cleaned_early are executions of the code under the other two in which the events are stored twice). Rollback does not stop a later Commit with the same context (C128_commit_after_rollback); a Commit that returned nil may be followed by another question to the checker (C128_done_then_asked)."
  },
  {
   "property": "C129",
   "status": "partial",
   "theorems": [
    "Ddd.C129_parent_asked_first",
    "Ddd.C129_fields_in_order",
    "Ddd.C129_parent_written_first_partial",
    "Ddd.C129_order_exact",
    "Ddd.C129_child_written_first",
    "Ddd.C129_parent_deleted_first"
   ],
   "note": "Requests are proved in order for every save. Rows are proved in order when parent and child have the same model type, or when every inserted row of the child's type has an inserted parent of the parent's type. C129_order_exact says exactly when, for rows of different types: the first request for the one type is before the first request for the other. In general the claim is false of the code: batches are ordered by the first occurrence of their type, so a new detail below a stored line makes the details of a new line be written before the line (C129_child_written_first). With recursive delete, parents are deleted before their children (C129_parent_deleted_first), the reverse of what foreign keys need."
  },
  {
   "property": "C130",
   "status": "partial",
   "theorems": [
    "Ddd.OrderList.C130_only_wanted",
    "Ddd.OrderList.C130_whole_list_partial",
    "Ddd.OrderList.C130_pages_partial",
    "Ddd.OrderList.C130_time_fails",
    "Ddd.OrderList.C130_boundary_lost",
    "Ddd.OrderList.C130_pages_differ",
    "Ddd.OrderList.C130_offset_alone"
   ],
   "note": "Proved for requests without times, for pages only if the database lists rows in the same order in every answer. False of the code otherwise: the query names the column create_time while OrderPO has CreatedAt (created_at), so every request with a time fails (C130_time_fails); with such a column both ends of the interval are excluded, so consecutive intervals lose orders created at the boundary (C130_boundary_lost); there is no ORDER BY, so an order can be on two pages and another on none (C130_pages_differ). What gorm makes of Offset and Limit is taken from its documentation; whether the database accepts OFFSET without LIMIT is a parameter (C130_offset_alone)."
  },
  {
   "property": "C131",
   "status": "partial",
   "theorems": [
    "Ddd.C131_unique_kept_partial",
    "Ddd.C131_unchanged_values_partial",
    "Ddd.C131_replacement_fails",
    "Ddd.C131_swap_fails"
   ],
   "note": "Proved if no inserted or updated row takes a value that another stored row of the table has before the save or that another inserted or updated row takes. False of the code in general: inserts are written before deletes, so replacing a child by a new one with the same unique value fails midway although the rows after the save are unique (C131_replacement_fails); updates are written row by row, so two rows cannot swap their values (C131_swap_fails)."
  },
  {
   "property": "C132",
   "status": "partial",
   "theorems": [
    "Ddd.Http.C132_ok_means_done",
    "Ddd.Http.C132_done_is_ok",
    "Ddd.Http.C132_refused",
    "Ddd.Http.C132_history_partial",
    "Ddd.Http.C132_retry_partial",
    "Ddd.Http.C132_failed_but_stored",
    "Ddd.Http.C132_no_answer",
    "Ddd.Http.C132_delete_unknown",
    "Ddd.Http.C132_verb_ignored",
    "Ddd.Http.C132_get_deletes"
   ],
   "note": "Which requests are answered with 200, 400 and 404, and that 404 and 400 change nothing, is proved in full; that only what is answered with 200 changes the tables is proved unless the commit reports an error after everything was stored. False of the code in general: such an error is answered with 500 (C132_failed_but_stored); a request without its required item or coupon makes the service panic, so the connection is closed without an answer (C132_no_answer); deleting an unknown order, also without an ID, is answered with 200 (C132_delete_unknown). The HTTP method is ignored, so a GET request deletes orders (C132_get_deletes). Requests are served one after another; a response that cannot be written as JSON would be answered with 200 and an empty body. Commands are summarised as in C96-C98."
  }
 ]
}