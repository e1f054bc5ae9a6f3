claims = {
"C01": ("proved", ["C01_changes_exact"], "All heaps, snapshots, iteration orders; graphs acyclic."),
"C04": ("partial", ["C04_accepted_iff", "C04_rejected_untouched", "C04_move_is_one_update_partial", "C04_moves_accepted_partial", "C04_three_moves_rejected", "C04_old_parent_removed"], "Full claim is false of the code: moving three or more children out of one field is rejected (C04_three_moves_rejected), and a move out of a parent removed in the same save is an insert (C04_old_parent_removed). Proved: every accepted move is one update under the new parent; exactly which moves are accepted (C04_accepted_iff: the moved child is among the last two children removed from its field)."),
"C05": ("proved", ["C05_conflict_rejected"], ""),
"C06": ("proved", ["C06_identifiers"], ""),
"C07": ("proved", ["C07_every_row_written", "C07_failing_save_writes_prefix"], ""),
"C08": ("partial", ["C08_recursive_delete_partial", "C08_once_per_place", "C08_once", "C08_detached_descendant_survives"], "The last sentence is false of the code: a descendant detached in the same session is not deleted (C08_detached_descendant_survives). The rest is proved."),
"C09": ("proved", ["C09_delete_only_removed"], ""),
"C14": ("partial", ["C14_ended_once_partial", "C14_always_ended", "C14_commit_panic_ends_twice", "C14_rollback_panic_ends_twice"], "Exactly once is false of the code when Commit/RollBack (executor or bus) itself panics (two counterexample theorems); proved for all runs where these calls do not panic, and always-ended/at most one commit/never commit after rollback without assumption."),
"C15": ("proved", ["C15_commit_only_after_success", "C15_otherwise_rolled_back"], ""),
"C16": ("proved", ["C16_all_or_nothing", "C16_writes_inside"], "Crash points are prefixes of the call trace; the database is any transactional store (Spec/Trace.lean)."),
"C17": ("proved", ["C17_failed_commit"], ""),
"C18": ("proved", ["C18_break_main", "C18_break_init", "C18_break_only"], ""),
"C19": ("partial", ["C19_hooks_partial", "C19_init_break_skips_hooks"], "False of the code when Init breaks: no error, yet no hook is called (counterexample). Everything else proved."),
"C21": ("proved", ["C21_dry_run"], ""),
"C22": ("proved", ["C22_lock_order"], ""),
"C23": ("partial", ["C23_held", "C23_refused", "C23_released_partial", "C23_lock_panic_leaks", "C23_unlock_panic_leaks"], "Release is false of the code when Lock/UnLock itself panics (two counterexamples); everything else proved."),
"C60": ("proved", ["C60_hooks_exact", "C60_failing_hook", "C60_hooks_recursive", "C60_recursive_twice"], "C60_recursive_twice: with recursive delete the hooks of one entity can be called twice."),
"C61": ("partial", ["C61_contention_never_recognisable"], "The property is false of the code: proved that the error is never recognisable, for every environment."),
"C12": ("proved", ["C12_misuse_fails", "C12_later_saves_fail"], "Every user program; a Main that itself asks for a break ends with Break instead of an error, a panicking Main panics."),
"C13": ("partial", ["C13_container_misuse_commits", "C13_container_misuse_ignored"], "The property is false of the code (RootContainer is passed by value): proved that the misuse is ignored and such commands commit."),
"C29": ("proved", ["C29_collected", "C29_order_independent", "C29_dispatched", "C29_removed_remembered"], ""),
"C30": ("proved", ["C30_events_after_writes"], ""),
"C31": ("proved", ["C31_handover", "C31_bus_commit_only_after_commit", "C31_committed_on_bus", "C31_rolled_back_on_bus"], "Assumes DispatchBegin returns a non-nil context when it succeeds."),
"C32": ("partial", ["C32_commit_may_fail_after_dispatch", "C32_dispatch_then_commit_partial"], "False of the code when Commit fails after the dispatch (counterexample); proved: a successful dispatch is immediately followed by Commit."),
"C33": ("proved", ["C33_persisted_events", "C33_not_persisted"], ""),
"C02": ("proved", ["C02_second_save_silent", "C02_repository_save_again", "C02_final_save_silent"], ""),
"C10": ("proved", ["C10_record_isolated", "C10_get_records", "C10_save_compares_with_load", "C10_save_compares_with_save"], ""),
"C11": ("proved", ["C11_update_has_record", "C11_save_panics_only_in_calls", "C11_main_panics_only_in_calls", "C11_command_panics_only_outside", "C11_failed_load_then_save_panics"], "The assumption that no snapshot step fails is needed (C11_failed_load_then_save_panics)."),
"C62": ("partial", ["C62_get_fails_only_otherwise_partial", "C62_get_tracks_partial", "C62_save_fails_only_otherwise", "C62_unregistered_no_row", "C62_wrapped_error_fails_get"], "False of the code for errors wrapping ErrEntityNotRegister during loading (swapped errors.Is, counterexample); proved for the plain sentinel, and for saving with any wrapping."),
"C25": ("partial", ["C25_exclusive_partial", "C25_exclusive_without_renewal", "C25_exclusive_with_margin", "C25_renewal_race"], "False of the code if renewals are merely made before the lease ran out (C25_renewal_race: stale read, then compare-and-swap on locker ID only). Proved without renewals, and with renewals keeping a margin of the maximal read-to-check delay."),
"C26": ("proved", ["C26_only_own_lock"], ""),
"C27": ("partial", ["C27_renewal_keeps_partial", "C27_late_renewal_lost"], "False of the code for a late renewal (C27_late_renewal_lost); proved for timely ones."),
"C28": ("proved", ["C28_bounded_retry", "C28_free_key_obtained"], ""),
"C34": ("proved", ["C34_routing", "C34_success_iff", "C34_ill_typed", "C34_struct_error_panics"], "For handlers of the documented form; the registration check also accepts ill-typed ones that panic when called (C34_ill_typed, C34_struct_error_panics)."),
"C35": ("proved", ["C35_answer", "C35_no_checker", "C35_second_refused"], ""),
"C20": ("partial", ["C20_own_hooks_only_partial", "C20_no_own_hooks", "C20_full_iff", "C20_hooks_mix"], "False of the code when the engine's hook slice has spare capacity, e.g. with 3 engine hooks (C20_hooks_mix). Proved when it is full (0 or a power of two hooks, C20_full_iff), and for commands without own hooks."),
"C24": ("proved", ["C24_no_circular_wait", "C24_progress", "C24_nested_deadlock"], "Commands run from inside commands that hold locks can deadlock (C24_nested_deadlock); the property excludes them."),
    "C36": ("proved", ["C36_dispatch_effect", "C36_histories", "C36_dispatch_succeeds"], "Stated over Valid databases (primary/unique keys, counters); Valid is kept by every operation (valid_runOps). That dispatches interleaved with other statements do the same is part of the transition system used for C40."),
    "C37": ("partial", ["C37_per_statement_partial", "C37_success_means_all", "C37_not_atomic", "C37_half_the_services", "C37_lost_forever"], "False of the code: the inserts of Dispatch do not use the transaction opened for them. Proved: what holds at each crash point (events all or none, per service all or none), counterexamples, and that an event without record stays lost in every history."),
    "C38": ("partial", ["C38_begin_invisible", "C38_invisible_until_commit", "C38_rolled_back_partial", "C38_commit_delivers", "C38_committed_once_partial", "C38_repeat_is_noop", "C38_checkback", "C38_checkback_not_due", "C38_commit_crash_loses", "C38_recommit_after_clean", "C38_crash_then_clean", "C38_commit_races_checkback", "C38_commit_after_rollback", "C38_checkback_error_loses"], "Proved for all histories of non-overlapping operations with crashes at every statement: invisible until commit, never visible after rollback, not stored again after a completed commit unless a client calls Commit again; six counterexamples show where the full property fails (crash inside Commit losing the events, crash inside Commit before the row is deleted so that a check-back after cleaning dispatches again, repeated Commit after cleaning, Commit overlapping the check-back, Commit after Rollback, swallowed error)."),
    "C39": ("proved", ["C39_window_start", "C39_no_start", "C39_right_work", "C39_pairing_race"], "For a scan whose statements see one database state; the records and their events are read by two statements, and a cleaning in between can pair records with foreign events (C39_pairing_race)."),
    "C43": ("proved", ["C43_panic_is_failure", "C43_others_unaffected", "C43_panic_retries"], ""),
    "C45": ("proved", ["C45_laxFifo_waits", "C45_laxFifo_ready"], ""),
    "C47": ("proved", ["C47_clean_isolated", "C47_run_isolated"], ""),
    "C48": ("proved", ["C48_clean_exact", "C48_any_batches", "C48_survive"], ""),
    "C49": ("partial", ["C49_starvation", "C49_fitting_partial"], "False of the code: LimitPerRun blocked FIFO events starve every later event (C49_starvation). Proved when the blocked backlog fits in one run."),
    "C50": ("proved", ["C50_one_run", "C50_run_reduces", "C50_progress", "C50_finished"], ""),
    "C40": ("partial", ["C40_no_loss_partial", "C40_no_loss_limit_partial", "C40_removed_after_success_partial", "C40_own_event_partial", "C40_lost", "C40_dangling"], "Proved for all interleavings, stale copies and crashes of any number of dispatchers, workers and cleaners, assuming that the events of records a scan has read are still there when it reads them; without this the property is false of the code (C40_lost). C40_dangling: a cleaning during a dispatch leaves a pending record without event."),
    "C41": ("proved", ["C41_limit", "C41_custom", "C41_pending", "C41_too_many"], "When workers do not overlap (policy fresh) and no process dies between the return of a handler and the commit of the outcome (lossless). C41_too_many shows the first assumption is needed."),
    "C42": ("partial", ["C42_not_before_next", "C42_interval_partial", "C42_custom_partial", "C42_too_early"], "False of the code when workers overlap (C42_too_early: the stale copy of another worker is handled at once); proved when they do not. In all of them up to the amount a clock is ahead (Pol.ahead, 0 for right clocks; C118)."),
    "C44": ("partial", ["C44_fifo_waits", "C44_fifo_ready", "C44_no_sender", "C44_in_order_partial", "C44_no_gaps_partial", "C44_dispatch_race", "C44_expired_gap"], "First part proved for all states. Order without gaps proved for all interleavings under InOrder (dispatches of the sender do not overlap, nothing leaves the window unhandled, no cleaning during a dispatch) and without manual expiry; counterexamples without."),
    "C46": ("partial", ["C46_not_again_partial", "C46_handled_twice", "C46_success_forgotten"], "False of the code when workers overlap (the second check looks at the worker's own copy): two counterexamples. Proved when no worker acts on a stale copy."),
    "C51": ("proved", ["C51_order", "C51_capacity", "C51_call_order", "C51_call_handled", "C51_returned", "C51_handled_given", "C51_serial", "C51_accounted", "C51_flow", "C51_progress", "C51_blocks"], "For all interleavings of any number of Dispatch calls and the consumer."),
    "C52": ("proved", ["C52_only_due", "C52_once_not_early", "C52_cron_not_early"], "The time is the one stored: the datetime column rounds to whole seconds, so a RunOnce can fire up to half a second early (rounding_fires_early)."),
    "C53": ("proved", ["C53_once", "C53_count", "C53_stays", "C53_again"], ""),
    "C54": ("proved", ["C54_next", "C54_consecutive", "C54_increasing"], "For satisfiable expressions; an accepted expression that never matches fires at every poll (unsatisfiable_fires_always)."),
    "C55": ("partial", ["C55_refused", "C55_existing_partial", "C55_new", "C55_unique", "C55_stable", "C55_other_service"], "Proved for single calls with nonempty keys, and uniqueness and stability for all histories. Full property false: empty keys are ignored (empty_key_ignored), an empty cron expression is not refused (empty_cron_fires_once), overlapping calls may get a duplicate error (register_race), a key of another service cannot be used (C55_other_service)."),
    "C56": ("partial", ["C56_partial", "C56_empty", "C56_never_again"], "False of the code: Cancel removes the job with the key whatever its service (cancel_other_service). Proved: exactly the jobs with the key go, and are never called again."),
    "C63": ("proved", ["C63_exclusive"], ""),
    "C64": ("proved", ["C64_poll", "C64_drained", "C64_can_run"], ""),

 'C57': ('partial', ['C57_no_column_missed_partial','C57_embedded_pointer_lost','C57_embedded_pointer_cleared','C57_anonymous_one_column_lost','C57_same_name_lost','C57_nil_snapshot_skips','C58_changed_written_partial','C58_mirror_partial'],
   'Proved for all values of one type when embedded pointers do not change between nil and non-nil and gorm spreads exactly the structs the code takes apart. Without these hypotheses the English claim is false: theorems give an embedded pointer set or cleared, an anonymous one-column struct, equal field names under different prefixes, a nil snapshot model.'),
 'C58': ('partial', ['C58_unchanged_iff','C58_unchanged_no_sql_partial','C58_listed_changed_partial','C58_changed_written_partial','C58_others_kept_partial','C58_mirror_partial','C58_disjoint_updates','C58_all_rows','C58_other_rows','C58_missing_row','C58_save_overwrites','C58_insert','C58_delete','C58_unexported_slice_always_written','C58_nan_always_written'],
   'Exact condition for "unchanged, no SQL" (every value can be compared with itself); false for non-UTC times and NaN. Column-wise effect for every concurrent content of the row. Hypotheses as for C57 plus unambiguous field names.'),

 'C59': ('proved', ['C59_own','C59_groups','C59_keys_by_type','C59_keys_once','C59_panics_iff','C59_emptied_is_deleted','C59_own_must_list'],
   'For every struct layout and all field values. The exact panic condition is a theorem (entity interface implemented by a struct value, nil interface in a list). C59_own_must_list: an own GetChildren that omits an empty group hides deletions. Children inside structs embedded by value are not found (they are not fields of the entity itself).'),
 'C03': ('proved', ['C03_mirror','C03_mirror_hooks','C03_effect','C03_replaced_by_same_id'],
   'Over an executor applying writes literally (Spec/Store: an insert of an existing key fails, an update of a missing row does nothing). Hypotheses: the model is a function of entity and parent, entities in one place, distinct keys, store in sync with the snapshots before, keys of stored entities unchanged, undirty entities unchanged. With hooks the objects are taken at conversion time. C03_replaced_by_same_id shows the key hypothesis is needed.'),
 'C65': ('partial', ['C65_untracked_inserted','C65_add_inserted_partial','C65_add_in_repository','C65_load_loses','C65_add_then_get_lost','C65_add_then_remove_lost','C65_new_grandchild_lost'],
   'For every history: what has no snapshot at the save is inserted (C65_untracked_inserted); what is added without misuse is inserted if no root is loaded before the save (C65_add_inserted_partial). The English claim is false with a load in between, for every program: C65_load_loses; further theorems give Add then Get, Add then Remove of an unknown root, and a new child with its own new child followed by Get. Hypothesis: the executor builds a query model for every entity (LoadsModels).'),
 'C66': ('partial', ['C66_tracked_roots_recorded','C66_removed_deleted_partial','C66_remove_from_repository','C66_added_then_removed_silent','C66_load_loses','C66_remove_then_get_lost','C66_two_removes_lost'],
   'What is removed without misuse is deleted if no root is loaded before the save; what was only added and is gone again is not written. The English claim is false with a load in between, for every program: C66_load_loses; further theorems give Remove then Get, and two Remove calls of unknown roots. The invariant C66_tracked_roots_recorded is for programs that do not call RootContainer.Add on a tracked entity.'),
 'C67': ('proved', ['C67_build','C67_parent_by_id','C67_not_found','C67_found_iff','C67_again_duplicates','C67_set_fields_restrict','C67_stale_pointer_cleared','C67_other_slices_panic','C67_needs_id','C67_unregistered','C67_command_needs_id','C67_command_asks'],
   'For a database that answers each query from one store (Reads) and converters that do not themselves answer "not found" (Honest), with arguments that name existing, distinct objects and variables (Apart). "The rows its query selects" are those equal in every non-zero column of the query model (gorm Where with a struct). Consequences shown by theorems: loading twice duplicates the slice, set fields of the entity restrict the query, a child pointer to an old object is cleared, slices of values or interfaces panic.'),
 'C68': ('proved', ['C68_saved_is_loaded','C68_saved_is_found'],
   'Composition of C03 (save) and C67 (load): hypotheses of both, plus: the foreign key tells the parent apart, the store held no rows below the entity the save did not know of, the converter queries by ID/foreign key and restores identifier and data.'),
"C69":("proved",["C69_not_in_between","C69_one_after_the_other","C69_hooks_overlap","C69_needs_exclusive"],"the locker is assumed exclusive (C25 says when the DB lock is); PostSave hooks are shown to be outside; without an exclusive locker commands overlap"),
"C70":("proved",["C70_not_committed_never_happened","C70_other_context_survives"],"about calls made with the context returned by Begin; a write made with another context (repo.Save(context.Background())) is shown to survive the rollback"),
"C71":("proved",["C71_committed_at_once"],""),
"C72":("partial",["C72_reads_own_writes","C72_other_executors_partial","C72_nested","C72_errors","C72_same_second_mixes","C72_nested_survives"],"false for executors created in the same second (C72_same_second_mixes): they share the context key; proved for different keys. Nested transactions are independent of, not part of, the outer one (C72_nested_survives)"),
"C73":("proved",["C73_committed_commands_only","C73_published_nothing_else"],"all writes of a command are made with the context given to Main"),
"C74":("proved",["C74_mutual_exclusion","C74_granted_when_free","C74_kept","C74_exclusive_for_commands","C74_beyond_lease"],"within the lease, as stated; beyond it two clients can hold the key (C74_beyond_lease): there is no renewal. Tokens of different calls of Lock are assumed different"),
"C75":("proved",["C75_release"],""),
"C76":("proved",["C76_bounded_retry","C76_free_is_obtained"],""),
"C77":("proved",["C77_database_lock_exclusive","C77_serial_on_database_lock","C77_serial_on_redis_lock"],"the assumption on leases is needed: C25_renewal_race, C74_beyond_lease"),
"C78":("proved",["C78_alone","C78_unchanging","C78_reads"],"all writes of a command are made with the context given to Main"),
"C79":("proved",["C79_registration","C79_registered","C79_delivery","C79_handled_iff","C79_effects","C79_failed_not_committed","C79_succeeded_committed"],"handlers of the type are command handlers; the database is used by these deliveries alone"),
"C80":("partial",["C80_at_most_once_partial","C80_two_handlers","C80_late_panic"],"False of the code with two handlers for a type (the first commits again when the second fails), with a panic after the commit, with overlapping workers (C46_handled_twice), and if the process dies before the outcome is saved. Proved without these."),
"C81":("partial",["C81_recorded","C81_delivered_partial"],"that the records are stored when Dispatch returns nil is proved in full; what becomes of them later is false of the code without the calm assumption of C40 (C40_lost)"),
"C82":("proved",["C82_registration","C82_refused_blocks","C82_poll"],"sequential registrations; a panicking callback ends the process"),
"C83":("proved",["C83_engines","C83_run","C83_callbacks"],"sequential calls (overlapping runs: C20); Option implementations written by the user are not modelled"),
"C84":("partial",["C84_output","C84_unclean","C84_actions_performed","C84_actions_all_partial","C84_commit_failed","C84_ignored_error"],"that Actions lists all writes of a successful command is false when the code ignores the error of a save (C84_ignored_error); proved when no write failed. Hooks that modify the Result are not modelled"),
"C85":("partial",["C85_untouched_partial","C85_again","C85_create_delete"],"that the framework itself changes nothing but empty IDs and dirty flags is proved in full; that an event is dispatched by one command only is false when the entity object is used in two commands (C85_again, C85_create_delete)"),
"C86":("partial",["C86_repeats","C86_example"],"false of the code: do ends with persist without flush, so Commit in PostSave repeats all writes of the final save (proved for commands without entity hooks and recursive delete)"),
"C87":("proved",["C87_icommand","C87_main_ignored","C87_main","C87_func","C87_invalid","C87_create_delete","C87_init_inert"],"Main of a value that also has the four ICommand methods is ignored, as stated; a value whose Main uses the agent panics since SetStage is called for ICommand only (noAgent)"),
"C88":("partial",["C88_phases_partial","C88_act_start","C88_build_changes_not_saved","C88_build_changes_lost"],"the order of the phases, the check of the roots and what Act starts from are proved in full; that changes made in Build are saved too is false of the code (C88_build_changes_lost; in general C88_build_changes_not_saved)"),
"C89":("proved",["C89_pool","C89_complete","C89_waits","C89_progress","C89_terminates","C89_returns","C89_no_workers","C89_sequential","C89_others_go_on","C89_bus_sequential","C89_bus_any_schedule","C89_fifo_delayed"],"for ordered (FIFO) events the schedule does matter: C89_fifo_delayed. handleEvent is two atomic halves; finer interleavings with other instances are in the transition system of C40-C46"),
"C90":("partial",["C90_accepts_partial","C90_default_retry","C90_strategy_first","C90_interval","C90_custom","C90_limit_ignored","C90_interval_alone","C90_unchecked"],"which options are accepted and which strategy results is proved in full; that each option is honoured and each accepted configuration works is false (C90_limit_ignored, C90_interval_alone, C90_unchecked with C91_dead_at_start and C89_no_workers)"),
"C91":("partial",["C91_start_once","C91_only_checker_kills_partial","C91_dead_at_start","C91_poison","C91_unregistered"],"single start and survival of handler outcomes proved (for strategies that do not panic, else C115); false of the code for panicking transaction checkers (C91_poison: a crash loop) and failed registration (C91_unregistered: the repair code is dead)"),
"C92":("partial",["C92_fate", "C92_atomic_partial", "C92_handover", "C92_checkback_delivers_partial", "C92_told_means_stored_partial", "C92_possible"],"missing: a Commit of the bus interrupted between its statements loses events (C38_commit_crash_loses), so Commit is executed completely or not at all in the stories; cleaning does not remove the events while the command is still running"),
"C93":("proved",["C93_story", "C93_zero_interval"],""),
"C94":("partial",["C94_accepted", "C94_no_overlap_partial", "C94_demo", "C94_equal_interval"],"false without bounds on delays, and with ttl = renew interval, which NewDBLock accepts (C94_equal_interval: two callbacks at once with no delays at all). Proved: if everything due is done within d, d < interval and interval + 3d < ttl, callbacks whose contexts are not done do not overlap"),
"C95":("partial",["C95_told_iff_partial", "C95_overtaken", "C95_goroutine_left", "C95_cancelled_keeps_row", "C95_cancelled_locked"],"the last sentence is false of the code: the goroutine waits on the channel of the stopped ticker for ever unless a renewal failed (C95_told_iff_partial, C95_goroutine_left), and after the caller cancelled its context the row stays although Run returns nil (C95_cancelled_keeps_row, C95_cancelled_locked)"),
"C96":("proved",["C96_total", "C96_history", "C96_exact", "C96_dirty", "C96_new", "C96_accepts", "C96_stale"],"C96_stale: after a call that returned an error the total may be stale (the coupons were already filtered)."),
"C97":("partial",["C97_valid_partial", "C97_refused", "C97_asked", "C97_minimum"],"Proved for rule engines that look at the lines only. False for an engine that looks at the total: fixCoupons runs before calPrice, so coupons are checked against the old total (C97_minimum)."),
"C98":("partial",["C98_stored_partial", "C98_add_item", "C98_add_coupon", "C98_orphans", "C98_query", "C98_events", "C98_demo"],"True while nothing is added to an existing order. AddSaleItem and AddCoupon load the order without its children, so the stored total is overwritten by that of the new line or coupon alone (exact condition in C98_add_item, C98_add_coupon); the query looks for lines with the wrong column and answers none; deleting leaves the rows below; coupon events carry the type of line events."),
"C99":("partial",["C99_accepts", "C99_start_once", "C99_kills", "C99_survives_partial", "C99_others_partial", "C99_dead_at_start", "C99_poison"],"The last sentence is false for a callback that panics: the process ends at it after every restart and no job registered later is called (C99_poison); an interval that is not positive is accepted and ends the process at Start (C99_dead_at_start)."),
"C100":("partial",["C100_own_partial", "C100_local", "C100_none", "C100_begun", "C100_dispatch_inside", "C100_same_second"],"Holds between buses created in different seconds. False for buses created in the same second, which share their context keys (C100_same_second), and for Dispatch with the context of an open transaction, after which Commit returns nil without publishing the transaction's events (C100_dispatch_inside)."),
"C101":("partial",["C101_fields_partial", "C101_send_type", "C101_send_time_lost", "C101_delay_at_once"],"The delay is false: SendTime is never copied into the event and SendTypeDelay is handled as a normal event (C101_send_time_lost, C101_delay_at_once)."),
"C102":("proved",["C102_execution", "C102_once", "C102_calls", "C102_bounded", "C102_no_loss", "C102_backoff"],"a run does not die between the return of a handler and the commit of its outcome (then the handler is called again)"),
"C103":("proved",["C103_events_kept", "C103_removed", "C103_calm", "C103_no_loss", "C103_removed_handled"],"the condition on slow dispatches and scans is part of the statement; without it see C40_dangling and C40_lost. Age is up to the amount a clock is ahead (Pol.ahead, 0 for right clocks; C118)"),
"C104":("proved",["C104_prefix", "C104_next"],"the circumstances are part of the statement; C44_dispatch_race and C44_expired_gap show what happens outside them"),
"C105":("proved",["C105_genuine", "C105_determined"],"the vocabulary is Spec/Answers.lean"),
"C106":("partial",["C106_no_edits", "C106_seen", "C106_own_types_partial", "C106_not_isolated"],"False as stated (C106_not_isolated); C106_seen says exactly what each handler is given, C106_own_types_partial and C106_no_edits when the claim holds."),
"C107":("partial",["C107_bus", "C107_forever", "C107_standstill", "C107_unbuffered", "C107_room_partial", "C107_only"],"False as stated (C107_standstill, for every capacity); C107_only and C107_forever give the exact condition, C107_room_partial a sufficient one (everything under way fits into the channel)."),
"C108":("partial",["C108_no_effect", "C108_goes_on"],"False as documented (C108_goes_on); C108_no_effect is the true statement: with or without the calls of Output the external calls, objects, errors, break flag and reported actions are the same, for every command and environment."),
"C109":("partial",["C109_not_begun_partial", "C109_failed_commit", "C109_like_any", "C109_repeats", "C109_not_again"],"False as stated (C109_not_again, C109_failed_commit for every continuation, C109_repeats for every successful Save without entity hooks and recursive delete); C109_not_begun_partial is the case in which it holds, C109_like_any says what a Save of a used stage is as long as no Commit has failed."),
"C110":("partial",["C110_last_started", "C110_own_iff_partial", "C110_output", "C110_crossed"],"False as stated (C110_crossed); C110_last_started says exactly which stage a call acts on, C110_own_iff_partial that the claim holds exactly for the histories without overlap, C110_output what the results then contain."),
"C111":("partial",["C111_exec", "C111_run_partial", "C111_update_iff", "C111_delete_iff", "C111_lost", "C111_auto_key", "C111_zero_line"],"False as stated (C111_auto_key, C111_zero_line, C111_lost). C111_run_partial proves it for all sequences of actions whose models have their key fields set and whose GetID is the key; C111_update_iff and C111_delete_iff are the exact conditions."),
"C112":("partial",["C112_exclusive_partial", "C112_still_there", "C112_expires", "C112_margin", "C112_skewed", "C112_two_leases"],"False as stated (C112_skewed, C112_two_leases). C112_exclusive_partial proves it with the margin 2d below the smallest lease time for all clocks off by at most d; C112_margin shows that the margin cannot be smaller; C112_expires that a dead client's lock is given up after lease time + d."),
"C113":("partial",["C113_walk_iff", "C113_walk_returns_partial", "C113_diff_iff", "C113_delete_iff", "C113_changes_endless", "C113_changes_iff", "C113_cycle_iff", "C113_back_pointer", "C113_graph_iff", "C113_same"],"False as stated (C113_back_pointer). The exact condition is proved for walk, entityDiff, recursiveDelete and getEntityChanged; C113_graph_iff shows that the graphs of all other claims are exactly those on which the code comes back, and C113_same that both models agree on them."),
"C114":("partial",["C114_stored_iff", "C114_not_stored", "C114_binary", "C114_same_partial", "C114_never_counted", "C114_called_again"],"False as stated: the text is cut at byte 65535, which may split a character (C114_not_stored), and a strict utf8mb4 column refuses it, as it refuses a text that is not UTF-8 (C114_binary); the error of Save then rolls the transaction back. C114_never_counted: such a delivery stays exactly as it was through any history, C114_called_again: and its handler is called in every pass, for ever, without pause. C114_same_partial: if the database takes all the texts, passes are those of Model/Bus (for which C41 and C42 count). C114_stored_iff: exactly which texts are taken."),
"C115":("partial",["C115_survives_partial", "C115_dies", "C115_blocks", "C115_stuck"],"True for handlers (C115_survives_partial: if the strategy does not panic the process survives, whatever the handlers do). False for strategies: doRetryStrategy is called in the deferred function after recover (again, if the first panic was its own), in a goroutine of its own, so nothing recovers it. C115_dies: the process ends. C115_blocks, C115_stuck: nothing was stored, so after a restart the same event kills the process again, and no later event of the service is handled, until the event leaves the 24 hour window."),
"C116":("partial",["C116_handled_partial", "C116_lost", "C116_lost_forever", "C116_dies", "C116_rolled_back"],"False without the condition that at every tick the engine exists and all registrations are made: a tick between NewEngine and a registration marks due deliveries of the type as handled without calling anything, for good (C116_lost, C116_lost_forever); it rolls overdue transactions back unasked (C116_rolled_back); a tick before NewEngine with an overdue transaction ends the process (C116_dies). One consumer, ticks at one moment."),
"C117":("partial",["C117_called_partial", "C117_lost", "C117_lost_forever", "C117_event_fires", "C117_events_apart"],"Proved: if a handler is registered for the key the first one is called with every due job of the key (unless a callback panics); events of other types never call a task. False: without a handler a one-shot job is finished though nothing was called, for good (C117_lost, C117_lost_forever); an event published with the key as its type calls the task (C117_event_fires)."),
"C118":("partial",["C118_backoff_partial", "C118_retention_partial", "C118_no_loss_partial", "C118_early", "C118_timer_early_partial", "C118_timer_forward", "C118_timer_sharp"],"'Not early' is false of the code: a host whose clock is ahead by a calls handlers, removes events and fires timers up to a early (C118_early, C118_timer_sharp: the bound is sharp). Back-off as in C42 without workers acting on stale copies, no loss as in C40, both for all clocks. The database lock is C112."),
"C119":("partial",["C119_fate", "C119_atomic_partial", "C119_checkback_delivers_partial", "C119_example_loses", "C119_commit_error_loses", "C119_always_commit"],"False of the code in three ways: the checker registered in the example is replaced by RegisterEventBus, so its check-back rolls back and loses the event of every committed transaction whose bus Commit did not happen (C119_example_loses); Handle rolls the bus back after a commit error although the commit may be durable (C119_commit_error_loses); where an always-TXCommit checker is in force, a crash before the database commit delivers an event for data that do not exist (C119_always_commit). Proved: both or neither with a truthful checker, without such a lost answer and with bus Commit undivided (C38_commit_crash_loses)."),
"C120":("partial",["C120_in_force_partial", "C120_checker_replaced", "C120_handler_replaced"],"False of the code: RegisterEventBus, NewEngine and every Run/RunCommand of an engine with the bus replace both functions by the framework's; transactions of types without a checker at the framework are then rolled back and events without a handler at the framework count as handled. Proved: in force as long as none of these follows."),
"C121":("partial",["C121_roundtrip_partial", "C121_what_arrives", "C121_other_version", "C121_hidden_lost", "C121_bytes_lost", "C121_interface_changed", "C121_struct_changed", "C121_pointer_lost", "C121_empty_slice", "C121_monotonic_lost", "C121_not_finite", "C121_other_type", "C121_out_of_range", "C121_case"],"False of the code in general, since events travel as JSON: fields that are not exported arrive zero, bytes that are no UTF-8 as U+FFFD, numbers in interface fields as floats, structs there as maps, pointers to nil pointers as nil, empty slices with omitempty as nil, times without monotonic reading; an event with NaN can not be made (panic); a handler with an incompatible field is never called. Proved: exactly what arrives for every type and value (C121_what_arrives), that it is what was sent for all other types and values (C121_roundtrip_partial), and what handlers with another version of the type get (C121_other_version)."),
"C122":("partial",["C122_finished_by", "C122_handled_partial", "C122_old_instance", "C122_swallowed", "C122_check_back"],"False of the code: instances share the deliveries of their service, and an instance without a handler (or checker) for a type counts such events as handled (rolls such transactions back). So during a deployment events of a new type are swallowed by instances that still run the old program (C122_swallowed, C122_check_back; C122_old_instance for every state). Proved: whichever instance finishes a delivery called all its own handlers with success (C122_finished_by), hence a handler every instance has is always called (C122_handled_partial)."),
"C123":("partial",["C123_effect_has_cause_partial", "C123_effect_once_partial", "C123_called_partial", "C123_eventually_partial", "C123_state", "C123_history"],"Partial because the full claim is false of the code: bus Commit interrupted between its statements loses events (C38, C92), two handlers per type or a panic after the commit repeat the effect (C80), overlapping workers (C46). Assumed accordingly: bus Commit undivided, operations on the bus do not overlap (InTime), one command handler per event type, no late panic, no ErrBreak. That the handlers are called needs that the due work fits into a run, the event is in the window and not an ordered one (C49: otherwise a run may starve it)."),
"C124":("partial",["Bus.C124_prefix_partial", "Bus.C124_next_partial", "Bus.C124_overtaken"],"Proved for events that come into the event table in the order of their creation. Without that it is false of the code (C124_overtaken): a transaction that is begun does not hold back later FIFO events of the same sender; if its client is slower, or dies and the check-back commits it, the later events are handled first."),
"C125":("partial",["Timer.C125_kept", "Timer.C125_once_called", "Timer.C125_cron_called", "Timer.C125_spent", "Timer.C125_used_up", "Timer.C125_reused_key_ignored"],"Proved in full for registrations that store a job. The first sentence is false of the code for a key that was used before: the row of a one-shot job stays in the table as finished (C125_spent), so that a later RunOnce or RunCron with the same key is answered with success, stores nothing (C125_reused_key_ignored) and the callback is never called for it (C125_used_up) unless the key is cancelled first."),
"C126":("partial",["TimerLife.C126_due", "TimerLife.C126_at_most_once_partial", "TimerLife.C126_cron_partial", "TimerLife.C126_exactly_once_partial"],"C126_due holds without assumptions on callbacks and the database. The rest assumes that callbacks do not panic and that saving works after a call; without these it is false of the code: the call is repeated (C53_again, C99_poison). That the call happens also assumes that rows can be locked."),
"C127":("partial",["Nested.C127_no_circular_wait_partial", "Nested.C127_progress_partial", "Nested.C127_released", "Nested.C127_own_key", "Nested.C127_waits_for_itself", "Nested.C127_only_refusal_helps"],"The release of all keys is proved for all commands. Freedom from deadlock is proved under the condition that every nested command only needs keys that come (in the sort order of runOnLock) after all keys held around it. Without it the claim is false of the code: two commands nested the other way round (C24_nested_deadlock), or a single command whose nested command needs a key of a command around it (C127_own_key, C127_waits_for_itself): locks belong to the call, not to the process, so it waits for itself until the service refuses (C127_only_refusal_helps)."),
"C128":("partial",["TxRace.C128_only_if_decided", "TxRace.C128_rolled_back", "TxRace.C128_rolled_back_for_good", "TxRace.C128_settled", "TxRace.C128_commit_done", "TxRace.C128_once_partial", "TxRace.C128_two_commits", "TxRace.C128_late_commit", "TxRace.C128_cleaned_early", "TxRace.C128_commit_after_rollback", "TxRace.C128_done_then_asked"],"Everything except 'at most once' is proved without assumptions. 'At most once' is proved when clients call Commit at most once per context and insert before the transaction is due, and events are not cleaned while the row is in the table; each of the three assumptions is necessary (C128_two_commits, C128_late_commit, C128_cleaned_early are executions of the code under the other two in which the events are stored twice). Rollback does not stop a later Commit with the same context (C128_commit_after_rollback); a Commit that returned nil may be followed by another question to the checker (C128_done_then_asked)."),
"C129":("partial",["C129_parent_asked_first", "C129_fields_in_order", "C129_parent_written_first_partial", "C129_order_exact", "C129_child_written_first", "C129_parent_deleted_first"],"Requests are proved in order for every save. Rows are proved in order when parent and child have the same model type, or when every inserted row of the child's type has an inserted parent of the parent's type. C129_order_exact says exactly when, for rows of different types: the first request for the one type is before the first request for the other. In general the claim is false of the code: batches are ordered by the first occurrence of their type, so a new detail below a stored line makes the details of a new line be written before the line (C129_child_written_first). With recursive delete, parents are deleted before their children (C129_parent_deleted_first), the reverse of what foreign keys need."),
"C130":("partial",["OrderList.C130_only_wanted", "OrderList.C130_whole_list_partial", "OrderList.C130_pages_partial", "OrderList.C130_time_fails", "OrderList.C130_boundary_lost", "OrderList.C130_pages_differ", "OrderList.C130_offset_alone"],"Proved for requests without times, for pages only if the database lists rows in the same order in every answer. False of the code otherwise: the query names the column create_time while OrderPO has CreatedAt (created_at), so every request with a time fails (C130_time_fails); with such a column both ends of the interval are excluded, so consecutive intervals lose orders created at the boundary (C130_boundary_lost); there is no ORDER BY, so an order can be on two pages and another on none (C130_pages_differ). What gorm makes of Offset and Limit is taken from its documentation; whether the database accepts OFFSET without LIMIT is a parameter (C130_offset_alone)."),
"C131":("partial",["C131_unique_kept_partial", "C131_unchanged_values_partial", "C131_replacement_fails", "C131_swap_fails"],"Proved if no inserted or updated row takes a value that another stored row of the table has before the save or that another inserted or updated row takes. False of the code in general: inserts are written before deletes, so replacing a child by a new one with the same unique value fails midway although the rows after the save are unique (C131_replacement_fails); updates are written row by row, so two rows cannot swap their values (C131_swap_fails)."),
"C132":("partial",["Http.C132_ok_means_done", "Http.C132_done_is_ok", "Http.C132_refused", "Http.C132_history_partial", "Http.C132_retry_partial", "Http.C132_failed_but_stored", "Http.C132_no_answer", "Http.C132_delete_unknown", "Http.C132_verb_ignored", "Http.C132_get_deletes"],"Which requests are answered with 200, 400 and 404, and that 404 and 400 change nothing, is proved in full; that only what is answered with 200 changes the tables is proved unless the commit reports an error after everything was stored. False of the code in general: such an error is answered with 500 (C132_failed_but_stored); a request without its required item or coupon makes the service panic, so the connection is closed without an answer (C132_no_answer); deleting an unknown order, also without an ID, is answered with 200 (C132_delete_unknown). The HTTP method is ignored, so a GET request deletes orders (C132_get_deletes). Requests are served one after another; a response that cannot be written as JSON would be answered with 200 and an empty body. Commands are summarised as in C96-C98."),
}
