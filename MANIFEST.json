{
 "claims": [
  {
   "property": "C01",
   "status": "proved",
   "theorems": [
    "Oar.Kao.timeline_partition",
    "Oar.Kao.walk_visits_all",
    "Oar.Kao.one_slot_per_date",
    "Oar.Kao.fresh_wf"
   ],
   "note": "all histories of timeline operations"
  },
  {
   "property": "C02",
   "status": "partial",
   "theorems": [
    "Oar.Kao.insert_exact_partial",
    "Oar.Kao.insert_covers",
    "Oar.Kao.insert_exact_violated"
   ],
   "note": "the code reserves one second too many when a slot ends at start+walltime (witness insert_exact_violated); exactness proved when no slot ends there, coverage always"
  },
  {
   "property": "C05",
   "status": "proved",
   "theorems": [
    "Oar.Hierarchy.findScattered_shape",
    "Oar.Hierarchy.children_nested",
    "Oar.Hierarchy.special_multilevel_refused"
   ],
   "note": ""
  },
  {
   "property": "C06",
   "status": "proved",
   "theorems": [
    "Oar.Hierarchy.one_level_exact",
    "Oar.Hierarchy.one_level_refused_iff",
    "Oar.Hierarchy.special_exact",
    "Oar.Hierarchy.special_empty_level_raises",
    "Oar.Hierarchy.findScattered_complete"
   ],
   "note": ""
  },
  {
   "property": "C03",
   "status": "partial",
   "theorems": [
    "Oar.Kao.no_double_allocation_partial",
    "Oar.Kao.no_double_allocation_violated"
   ],
   "note": "every pass, every slot set not re-opened as a container during the pass; witness: a container labelled 'default'; with a quotas calendar jobs must have a single alternative"
  },
  {
   "property": "C04",
   "status": "proved",
   "theorems": [
    "Oar.Kao.assigned_resources_free",
    "Oar.Kao.assigned_resources_shape",
    "Oar.Kao.no_double_allocation_partial"
   ],
   "note": "plain jobs; with a quotas calendar, jobs with one alternative (see DESIGN.md finding on stale slots)"
  },
  {
   "property": "C07",
   "status": "partial",
   "theorems": [
    "Oar.Hierarchy.findScattered_mono",
    "Oar.Hierarchy.findGroup_mono",
    "Oar.Hierarchy.findJob_mono",
    "Oar.Kao.cache_transparent",
    "Oar.Kao.cache_valid_partial",
    "Oar.Kao.cache_stale_violated"
   ],
   "note": "monotonicity for all requests; cache sound along every pass that does not add resources to the slot set; witness of a stale cache when a second container has the same label"
  },
  {
   "property": "C08",
   "status": "proved",
   "theorems": [
    "Oar.Kao.first_fit",
    "Oar.Kao.search_total",
    "Oar.Kao.no_place_date"
   ],
   "note": ""
  },
  {
   "property": "C09",
   "status": "proved",
   "theorems": [
    "Oar.Kao.moldable_earliest"
   ],
   "note": ""
  },
  {
   "property": "C10",
   "status": "partial",
   "theorems": [
    "Oar.Kao.dependency_blocks",
    "Oar.Kao.dependency_respected_partial",
    "Oar.Kao.dependency_boundary_violated",
    "Oar.Kao.dependency_unscheduled_violated"
   ],
   "note": "two witnesses of violation; first clause proved on timelines whose dates are on a grid of at least 2 s and for placed dependencies; second clause proved"
  },
  {
   "property": "C12",
   "status": "partial",
   "theorems": [
    "Oar.Hierarchy.groups_disjoint_violated",
    "Oar.Hierarchy.groups_disjoint_partial"
   ],
   "note": "groups may overlap in the code (witness); disjoint when their constraints are"
  },
  {
   "property": "C13",
   "status": "proved",
   "theorems": [
    "Oar.Kao.inner_jobs_inside_container"
   ],
   "note": "container slot set created by the pass, no quotas calendar"
  },
  {
   "property": "C49",
   "status": "partial",
   "theorems": [
    "Oar.Kao.unplaceable_container_aborts_violated",
    "Oar.Kao.missing_container_aborts_violated",
    "Oar.Kao.dependency_blocks"
   ],
   "note": "violated; unsatisfied dependencies do not abort"
  },
  {
   "property": "C47",
   "status": "partial",
   "theorems": [
    "Oar.Kao.sub_add_restores",
    "Oar.Kao.add_covers",
    "Oar.Kao.insert_window"
   ],
   "note": "second clause (subtract then add restores every date) proved in full; first clause up to the second start+walltime (same boundary defect as C02)"
  },
  {
   "property": "C11",
   "status": "partial",
   "theorems": [
    "Oar.Kao.sharing_exact_partial",
    "Oar.Kao.shareable_mayUse",
    "Oar.Kao.free_shareable",
    "Oar.Kao.sharing_search",
    "Oar.Kao.sharing_violated",
    "Oar.Kao.placeholder_recorded"
   ],
   "note": "witness of violation; exact when some resource is usable in the whole window"
  },
  {
   "property": "C15",
   "status": "partial",
   "theorems": [
    "Oar.Quotas.accepted_within_quotas_partial",
    "Oar.Kao.assigned_within_quotas_partial",
    "Oar.Quotas.type_quota_ignored_violated"
   ],
   "note": "the limits of the rule that applies are respected in every slot of the window (check), and at every date after the assignment (no calendar); witness: a limit on the second type of a job is ignored"
  },
  {
   "property": "C16",
   "status": "partial",
   "theorems": [
    "Oar.Quotas.counters_exact_partial",
    "Oar.Quotas.counters_order",
    "Oar.Quotas.combine_max_max_sum",
    "Oar.Quotas.record_keyed",
    "Oar.Quotas.counted_twice_violated"
   ],
   "note": "exact when the configured types are distinct (rules loaded once); witness otherwise"
  },
  {
   "property": "C17",
   "status": "partial",
   "theorems": [
    "Oar.Quotas.rule_most_specific",
    "Oar.Quotas.rule_found_partial",
    "Oar.Quotas.no_rule_no_limit",
    "Oar.Quotas.rule_missed_violated"
   ],
   "note": "the rule found is the most specific one; found whenever no dead-end branch exists (witness otherwise)"
  },
  {
   "property": "C14",
   "status": "proved",
   "theorems": [
    "Oar.Kao.reservation_accepted",
    "Oar.Kao.reservation_refused",
    "Oar.Kao.reservations_exclusive",
    "Oar.Kao.security_time_not_reserved",
    "Oar.Kao.encompassingRange_none_iff"
   ],
   "note": "plain jobs; last theorem: the code checks only up to the end minus the security time, though it reserves up to the end"
  },
  {
   "property": "C18",
   "status": "partial",
   "theorems": [
    "Oar.Quotas.calendar_tiles",
    "Oar.Quotas.checked_tiles",
    "Oar.Quotas.calendar_lookup_partial",
    "Oar.Quotas.calendar_lookup_violated",
    "Oar.Quotas.nextRules_exact"
   ],
   "note": "the week is tiled; the lookup is right at the beginning of a period only (witness otherwise)"
  },
  {
   "property": "C19",
   "status": "proved",
   "theorems": [
    "Oar.Accounting.consumption_conserved",
    "Oar.Accounting.accounting_exact"
   ],
   "note": ""
  },
  {
   "property": "C20",
   "status": "partial",
   "theorems": [
    "Oar.Accounting.accounted_at_most_once_partial",
    "Oar.Accounting.accounted_violated"
   ],
   "note": "never counted twice; witness: a job still running at the time of an update is never counted"
  },
  {
   "property": "C21",
   "status": "partial",
   "theorems": [
    "Oar.Walltime.request_authorised",
    "Oar.Walltime.permitted_iff",
    "Oar.Walltime.request_bounded",
    "Oar.Walltime.increase_bounded_partial",
    "Oar.Walltime.max_increase_violated"
   ],
   "note": "one request bounded; witness for several requests"
  },
  {
   "property": "C22",
   "status": "partial",
   "theorems": [
    "Oar.Walltime.round_conserves",
    "Oar.Walltime.rounds_conserve",
    "Oar.Walltime.late_reduction_violated",
    "Oar.Walltime.end_before_next"
   ],
   "note": "every round of increases; reductions when the job has not exceeded its walltime (witness otherwise)"
  },
  {
   "property": "C50",
   "status": "partial",
   "theorems": [
    "Oar.Walltime.accepted_never_processed_violated",
    "Oar.Walltime.request_waits"
   ],
   "note": "violated"
  },
  {
   "property": "C23",
   "status": "proved",
   "theorems": [
    "Oar.Jobs.setJobState_ended",
    "Oar.Jobs.setJobState_alive",
    "Oar.Jobs.setJobState_stop",
    "Oar.Jobs.setJobState_others",
    "Oar.Jobs.ended_absorbing",
    "Oar.Jobs.log_timeline",
    "Oar.Jobs.log_known",
    "Oar.Jobs.log_one_open",
    "Oar.Jobs.ids_unique"
   ],
   "note": "all histories of submissions, state changes, deletions, holds, resumes, checkpoints, timers, job ends and event treatments"
  },
  {
   "property": "C24",
   "status": "partial",
   "theorems": [
    "Oar.Jobs.fragJob_spec",
    "Oar.Jobs.holdJob_spec",
    "Oar.Jobs.resumeJob_spec",
    "Oar.Jobs.askCheckpoint_spec",
    "Oar.Jobs.checkpoint_event_violated"
   ],
   "note": "authorisation and state clauses proved exactly; witness: the checkpoint request records the wrong event"
  },
  {
   "property": "C25",
   "status": "partial",
   "theorems": [
    "Oar.Jobs.frag_step",
    "Oar.Jobs.one_request",
    "Oar.Jobs.fragged_final",
    "Oar.Jobs.sarko_exact",
    "Oar.Jobs.leonWalltime_gt",
    "Oar.Jobs.leon_exact",
    "Oar.Jobs.leon_ends",
    "Oar.Jobs.leon_exterminates",
    "Oar.Jobs.exterminate_event",
    "Oar.Jobs.escalation",
    "Oar.Jobs.fragged_done",
    "Oar.Jobs.leon_stuck",
    "Oar.Jobs.ended_fragged_violated"
   ],
   "note": "state machine of the deletion, delays, escalation and finality proved; witness: a job that ends by itself while its deletion is pending never becomes FRAGGED"
  },
  {
   "property": "C26",
   "status": "partial",
   "theorems": [
    "Oar.Jobs.sarko_walltime",
    "Oar.Jobs.sarko_walltime_partial",
    "Oar.Jobs.sarko_suspended_violated"
   ],
   "note": "exact for jobs never suspended; witness: the walltime of a suspended job is replaced by its suspension time"
  },
  {
   "property": "C34",
   "status": "proved",
   "theorems": [
    "Oar.Jobs.resubmitJob_spec",
    "Oar.Jobs.resubmit_redirects",
    "Oar.Jobs.resubmitted_once",
    "Oar.Jobs.event_resubmits",
    "Oar.Jobs.exit99_resubmitted",
    "Oar.Jobs.checkEnd_resubmits",
    "Oar.Jobs.resubmitted_row",
    "Oar.Jobs.resubmitting_failures"
   ],
   "note": ""
  },
  {
   "property": "C35",
   "status": "partial",
   "theorems": [
    "Oar.Jobs.event_state",
    "Oar.Jobs.hold_event",
    "Oar.Jobs.hold_running_violated",
    "Oar.Jobs.event_others",
    "Oar.Jobs.event_suspects",
    "Oar.Jobs.event_suspects_all",
    "Oar.Jobs.event_checked",
    "Oar.Jobs.end_event_ends",
    "Oar.Jobs.node_failures"
   ],
   "note": "witness: a request to suspend a running job is ignored (the two hold variants are swapped)"
  },
  {
   "property": "C41",
   "status": "proved",
   "theorems": [
    "Oar.Jobs.suspendedSum_exact"
   ],
   "note": ""
  },
  {
   "property": "C54",
   "status": "partial",
   "theorems": [
    "Oar.Jobs.one_event_blocks_violated",
    "Oar.Jobs.events_all_checked_partial"
   ],
   "note": "violated; when no exception is raised every event is treated"
  },
  {
   "property": "C48",
   "status": "partial",
   "theorems": [
    "Oar.Res.setNodeState_exact_partial",
    "Oar.Res.suspect_guard_raises",
    "Oar.Res.suspect_dead_violated"
   ],
   "note": "violated: the guarded branch always raises, the other one changes every resource of the node; exact effect proved"
  },
  {
   "property": "C51",
   "status": "partial",
   "theorems": [
    "Oar.Res.sarkoDead_exact_partial",
    "Oar.Res.alive_declared_dead_violated"
   ],
   "note": "violated: an Alive resource is declared dead; the delay clause is proved exactly for all histories"
  },
  {
   "property": "C52",
   "status": "partial",
   "theorems": [
    "Oar.Res.resource_log_timeline",
    "Oar.Res.resource_log_timeline_partial",
    "Oar.Res.property_log_timeline",
    "Oar.Res.resource_log_known",
    "Oar.Res.setProp_exact",
    "Oar.Res.api_created_violated",
    "Oar.Res.sqlite_log_violated",
    "Oar.Res.maintenance_log_violated"
   ],
   "note": "proved for all histories on PostgreSQL with resources created by the command line; three witnesses otherwise"
  },
  {
   "property": "C53",
   "status": "proved",
   "theorems": [
    "Oar.Res.changeAll_states",
    "Oar.Res.changeAll_frags"
   ],
   "note": ""
  },
  {
   "property": "C55",
   "status": "partial",
   "theorems": [
    "Oar.Res.finaud_only",
    "Oar.Res.finaud_complete",
    "Oar.Res.finaud_resurrects_violated"
   ],
   "note": "all clauses but the last one, which is violated (witness)"
  },
  {
   "property": "C56",
   "status": "proved",
   "theorems": [
    "Oar.Res.removeRes_spec"
   ],
   "note": "the tables of the job (job types, challenges...) that the model does not have are not covered"
  },
  {
   "property": "C27",
   "status": "partial",
   "theorems": [
    "Oar.Commander.one_executor",
    "Oar.Commander.commands_conserved",
    "Oar.Commander.executors_bounded_partial",
    "Oar.Commander.executors_bounded_violated",
    "Oar.Commander.never_blocked",
    "Oar.Commander.loop_progress",
    "Oar.Commander.waiting_served",
    "Oar.Commander.order_violated"
   ],
   "note": "one executor per job, conservation and progress proved; the bound holds up to one (witness); order of the commands of a job violated (witness)"
  },
  {
   "property": "C28",
   "status": "partial",
   "theorems": [
    "Oar.Almighty.queue_no_duplicate",
    "Oar.Almighty.scheduler_throttled",
    "Oar.Almighty.request_not_forgotten",
    "Oar.Almighty.request_received",
    "Oar.Almighty.command_served",
    "Oar.Almighty.request_served",
    "Oar.Almighty.request_starved_violated",
    "Oar.Almighty.unknown_dropped",
    "Oar.Almighty.watchers_queued",
    "Oar.Almighty.command_module",
    "Oar.Almighty.never_blocked",
    "Oar.Almighty.request_cleared",
    "Oar.Almighty.no_spurious_request",
    "Oar.Almighty.bad_exit_stops",
    "Oar.Almighty.first_turns",
    "Oar.Almighty.status_obeyed"
   ],
   "note": "all clauses proved; bounded response when only commands of the protocol are received (witness of starvation otherwise)"
  },
  {
   "property": "C29",
   "status": "proved",
   "theorems": [
    "Oar.Tools.duration_hms",
    "Oar.Tools.hms_unique",
    "Oar.Tools.sql_roundtrip",
    "Oar.Tools.sql_signed",
    "Oar.Tools.hms_parsed",
    "Oar.Tools.compound_sum",
    "Oar.Tools.hms_extra_ignored_violated"
   ],
   "note": "last theorem: fields after the third are silently ignored"
  },
  {
   "property": "C46",
   "status": "partial",
   "theorems": [
    "Oar.Tools.perl_roundtrip_partial",
    "Oar.Tools.safe_of_no_backslash",
    "Oar.Tools.perl_array_roundtrip_partial",
    "Oar.Tools.perl_empty_violated",
    "Oar.Tools.perl_empty_array_violated",
    "Oar.Tools.perl_backslash_violated",
    "Oar.Tools.perl_injection_violated"
   ],
   "note": "exact for non-empty dictionaries whose strings have no backslash before a quote, a backslash or the end, and whose keys have no quote; witnesses otherwise"
  },
  {
   "property": "C44",
   "status": "partial",
   "theorems": [
    "Oar.Api.accepted_not_revoked",
    "Oar.Api.auth_exact_partial",
    "Oar.Api.no_date_violated",
    "Oar.Api.revocation_zone_violated"
   ],
   "note": "exact on the dates as written; witnesses: a token without date makes the server fail, and the date of a token, in UTC, is read as a local one"
  },
  {
   "property": "C45",
   "status": "proved",
   "theorems": [
    "Oar.Api.list_pages",
    "Oar.Api.list_bounds",
    "Oar.Api.query_pages",
    "Oar.Api.query_bounds",
    "Oar.Api.negative_limit_violated"
   ],
   "note": "limit > 0 (last theorem: what a negative limit does); rows given in a fixed order"
  },
  {
   "property": "C57",
   "status": "partial",
   "theorems": [
    "Oar.Api.resources_complete_partial",
    "Oar.Api.resources_of_others_violated",
    "Oar.Api.resources_exact"
   ],
   "note": "violated"
  },
  {
   "property": "C58",
   "status": "partial",
   "theorems": [
    "Oar.Api.listed_matches",
    "Oar.Api.live_listed",
    "Oar.Api.window_listed_partial",
    "Oar.Api.window_sound",
    "Oar.Api.ended_not_started_violated",
    "Oar.Api.toError_violated",
    "Oar.Api.running_window_violated"
   ],
   "note": "soundness of the filters and completeness for live jobs proved; three witnesses"
  },
  {
   "property": "C30",
   "status": "partial",
   "theorems": [
    "Oar.ResSet.numbering_inverse",
    "Oar.ResSet.hierarchy_partition",
    "Oar.ResSet.resource_sets",
    "Oar.ResSet.build_total",
    "Oar.ResSet.unusable_confused_violated",
    "Oar.ResSet.large_id_violated",
    "Oar.ResSet.default_count_violated"
   ],
   "note": "all clauses but the last one, which is violated (witness); the count of default resources is wrong (witness)"
  },
  {
   "property": "C59",
   "status": "partial",
   "theorems": [
    "Oar.ResSet.constraints_exact_partial",
    "Oar.ResSet.constraints_unusable_violated",
    "Oar.ResSet.constraints_or_violated"
   ],
   "note": "exact when every resource is usable and the conditions have no OR; witnesses otherwise"
  },
  {
   "property": "C31",
   "status": "proved",
   "theorems": [
    "Oar.Queues.sorted_spec",
    "Oar.Queues.stable_sort_unique",
    "Oar.Queues.queues_grouped",
    "Oar.Queues.active_queues_scheduled",
    "Oar.Queues.higher_priority_first",
    "Oar.Queues.waiting_jobs",
    "Oar.Queues.sorting_spec",
    "Oar.Queues.considered_jobs",
    "Oar.Queues.cap_size",
    "Oar.Queues.fifo_considers_all"
   ],
   "note": "custom sorting plug-ins are not modelled; floating point numbers are rationals"
  },
  {
   "property": "C60",
   "status": "partial",
   "theorems": [
    "Oar.Queues.fairshare_favours_small_consumers",
    "Oar.Queues.fairshare_total",
    "Oar.Queues.user_target_violated",
    "Oar.Queues.multifactor_favours_older",
    "Oar.Queues.multifactor_favours_small_karma_partial",
    "Oar.Queues.multifactor_favours_small_karma_violated",
    "Oar.Queues.age_factor_flat",
    "Oar.Queues.karma_value",
    "Oar.Queues.share_violated",
    "Oar.Queues.karma_none_iff"
   ],
   "note": "fair-sharing: proved for users without target (a target raises, witness for all values); multifactor: age proved, karma when above -1 (witness otherwise)"
  },
  {
   "property": "C61",
   "status": "partial",
   "theorems": [
    "Oar.Queues.targets_read_back",
    "Oar.Queues.targets_read_back_violated",
    "Oar.Queues.table_white_space"
   ],
   "note": "non-empty sets proved; the empty set raises (witness)"
  },
  {
   "property": "C32",
   "status": "partial",
   "theorems": [
    "Oar.Launch.launched_due",
    "Oar.Launch.launched_alive_partial",
    "Oar.Launch.besteffort_killed",
    "Oar.Launch.due_launched",
    "Oar.Launch.launched_alive_violated",
    "Oar.Launch.checkpoint_raises_violated"
   ],
   "note": "due jobs, killing of best-effort jobs and completeness proved; Absent resources excluded when the rows of a job come together; violated otherwise (a Suspected or Dead resource is not seen; witness) and with a checkpoint the round raises (witness)"
  },
  {
   "property": "C33",
   "status": "partial",
   "theorems": [
    "Oar.Launch.late_reservation_end",
    "Oar.Launch.late_end_partial",
    "Oar.Launch.expired_error",
    "Oar.Launch.late_end_violated",
    "Oar.Launch.postponed_end_violated"
   ],
   "note": "exact end date computed: the security time is added; preserved when it is zero; witnesses otherwise"
  },
  {
   "property": "C36",
   "status": "partial",
   "theorems": [
    "Oar.Launch.flush_keeps_reservations",
    "Oar.Launch.remove_resources_exact",
    "Oar.Launch.remove_resources_violated",
    "Oar.Launch.waiting_reservation_violated"
   ],
   "note": "the flush is proved exact; the removal of resources is inverted (exact theorem and witness)"
  },
  {
   "property": "C42",
   "status": "partial",
   "theorems": [
    "Oar.JobTypes.timesharing_complete",
    "Oar.JobTypes.timesharing_exact_partial",
    "Oar.JobTypes.timesharing_symm_partial",
    "Oar.JobTypes.timesharing_symmetric_violated",
    "Oar.JobTypes.timesharing_never_violated"
   ],
   "note": "violated: not symmetric, and the dictionary of types never has the timesharing type, so the answer is always no"
  },
  {
   "property": "C43",
   "status": "partial",
   "theorems": [
    "Oar.Launch.suspended_exact",
    "Oar.Launch.suspended_partial",
    "Oar.Launch.sorted_grouped",
    "Oar.Launch.suspended_violated"
   ],
   "note": "violated: only the last job is treated (exact theorem and witness)"
  },
  {
   "property": "C62",
   "status": "partial",
   "theorems": [
    "Oar.JobTypes.types_read_partial",
    "Oar.JobTypes.types_read_violated",
    "Oar.JobTypes.types_meaning"
   ],
   "note": "exact condition proved, and exact meaning of what is read; violated by types without their value"
  },
  {
   "property": "C63",
   "status": "proved",
   "theorems": [
    "Oar.Launch.saved_schedule"
   ],
   "note": "messages and the primary keys of the tables are not modelled"
  },
  {
   "property": "C38",
   "status": "partial",
   "theorems": [
    "Oar.Submission.exempt_iff",
    "Oar.Submission.not_exempt_partial",
    "Oar.Submission.exempt_violated",
    "Oar.Admission.not_exempt_default"
   ],
   "note": "exact condition of exemption proved through submission and reading of the types; violated by a doubled literal or a value (witnesses) when the admission rules let them through; with the default rules proved without restriction"
  },
  {
   "property": "C39",
   "status": "partial",
   "theorems": [
    "Oar.Submission.submit_creates",
    "Oar.Submission.paramLines_spec",
    "Oar.Submission.wall_spec",
    "Oar.Submission.withAdmin_spec",
    "Oar.Submission.submit_error_partial",
    "Oar.Submission.array_moldable_violated",
    "Oar.Submission.array_size_violated",
    "Oar.Submission.array_reservation_violated",
    "Oar.Submission.array_raises_violated",
    "Oar.Submission.array_atomic_violated",
    "Oar.Submission.api_params_violated"
   ],
   "note": "every feasible submission is proved to create exactly the jobs asked; witnesses for arrays of moldable jobs, of reservations, of size below 1, and parameter files through the API; admission rules are an arbitrary function, estimation of resources an arbitrary function of the properties; challenges and messages not modelled"
  },
  {
   "property": "C40",
   "status": "proved",
   "theorems": [
    "Oar.Submission.parse_render",
    "Oar.Submission.parse_default",
    "Oar.Submission.parse_walltime_only",
    "Oar.Submission.parse_comma_violated",
    "Oar.Submission.parse_walltime_violated",
    "Oar.Submission.parse_raises_violated"
   ],
   "note": "round trip for all requests over clean names; behaviour outside of the grammar shown by witnesses"
  },
  {
   "property": "C64",
   "status": "partial",
   "theorems": [
    "Oar.Submission.submitted_is_scheduled",
    "Oar.Submission.data_read",
    "Oar.Submission.submit_keeps",
    "Oar.Submission.twice_harmless",
    "Oar.Submission.query_order_free",
    "Oar.Submission.data_order_free",
    "Oar.Submission.constraints_both",
    "Oar.Submission.interleaved_violated",
    "Oar.Submission.constraints_or_violated"
   ],
   "note": "proved for all tables whose moldable descriptions are grouped by job, which submissions preserve, in any order of the rows; the constraints of a group are proved to be the conjunction of the two conditions when they have no OR outside parentheses, with a witness otherwise; witness when concurrent submissions interleave them"
  },
  {
   "property": "C65",
   "status": "partial",
   "theorems": [
    "Oar.Estimate.accepted_iff",
    "Oar.Estimate.runnable_accepted_partial",
    "Oar.Estimate.accepted_runnable_partial",
    "Oar.Estimate.accepted_never_runs_violated",
    "Oar.Estimate.accepted_other_type_violated"
   ],
   "note": "exact condition of acceptance proved; equivalence with the schedulers for resources of one type and single groups; witnesses otherwise"
  },
  {
   "property": "C66",
   "status": "partial",
   "theorems": [
    "Oar.Submission.resubmit_iff",
    "Oar.Submission.resubmit_absent",
    "Oar.Submission.resubmit_creates_partial",
    "Oar.Submission.resubmitted_is_scheduled",
    "Oar.Submission.resubmit_fresh_violated",
    "Oar.Submission.resubmit_reservation_violated",
    "Oar.Submission.resubmit_types_violated"
   ],
   "note": "condition of success and exact copy proved for all tables; the part about starting afresh is violated (witnesses)"
  },
  {
   "property": "C37",
   "status": "partial",
   "theorems": [
    "Oar.Energy.halt_iff",
    "Oar.Energy.halt_disabled",
    "Oar.Energy.wake_iff",
    "Oar.Energy.halt_wake_disjoint",
    "Oar.Energy.asked_once",
    "Oar.Energy.halt_recent_violated",
    "Oar.Greta.keepalive_kept_partial",
    "Oar.Greta.keepalive_kept_violated",
    "Oar.Greta.keepalive_woken",
    "Oar.Greta.timeout_spec",
    "Oar.Greta.timeout_mono",
    "Oar.Greta.timeouts_read",
    "Oar.Greta.timeouts_violated"
   ],
   "note": "Exact conditions for the nodes asked to halt or wake up by the meta scheduler; keep-alive proved when every node has its resources in a single state; the code counts rows, not nodes (witness), uses the oldest resource of a node for its idle time (witness), and raises on a malformed couple or a table without threshold 1 (witness)."
  },
  {
   "property": "C67",
   "status": "partial",
   "theorems": [
    "Oar.Greta.one_command",
    "Oar.Greta.one_command_always",
    "Oar.Greta.command_origin",
    "Oar.Greta.request_answered",
    "Oar.Greta.no_exception",
    "Oar.Greta.suspected_iff",
    "Oar.Greta.deadline_spec",
    "Oar.Greta.halt_forgotten_violated",
    "Oar.Greta.halt_failed_violated",
    "Oar.Greta.reminder_kept_violated",
    "Oar.Greta.reminder_repeated_violated"
   ],
   "note": "Proved for all histories: one command at a time, origin, answer, absence of exceptions. False in the code, proved as universal statements: a node being halted at a restart, or whose halt command fails, never gets any command again; remembered commands are never forgotten and are executed again."
  },
  {
   "property": "C68",
   "status": "partial",
   "theorems": [
    "Oar.Bipbip.launch_only_toLaunch",
    "Oar.Bipbip.not_toLaunch_untouched",
    "Oar.Bipbip.oarexec_once",
    "Oar.Bipbip.oarexec_nodes_ok",
    "Oar.Bipbip.dead_head_violated",
    "Oar.Bipbip.prologue_failure_launched_violated",
    "Oar.Bipbip.prologue_twice_violated",
    "Oar.Bipbip.cpuset_unknown_launched_violated",
    "Oar.Bipbip.launched_after_end_violated",
    "Oar.Bipbip.wrong_challenge_launches_violated",
    "Oar.Bipbip.user_lost_violated",
    "Oar.Bipbip.start_node"
   ],
   "note": "Proved for the jobs that are not reservations; disagreements proved: a reservation may be started on a node that does not answer; a failed prologue does not prevent the start and the prologue is run twice; a job is started when the creation of the cpusets could not be run; a job ended meanwhile is started; a message of end with any challenge starts a job to be launched."
  },
  {
   "property": "C69",
   "status": "partial",
   "theorems": [
    "Oar.Bipbip.launch_outcome",
    "Oar.Bipbip.failed_launch_reported_partial",
    "Oar.Bipbip.prologue_failure_reported",
    "Oar.Bipbip.run_history",
    "Oar.Bipbip.suspect_event_ends",
    "Oar.Bipbip.failed_launch_ends_partial",
    "Oar.Bipbip.reservation_forgotten_violated",
    "Oar.Bipbip.no_host_forgotten_violated",
    "Oar.Bipbip.leon_called"
   ],
   "note": "Proved when no exception stops the launch and nothing else touches the job meanwhile; two exceptions that leave the job without event are proved to be possible."
  },
  {
   "property": "C70",
   "status": "partial",
   "theorems": [
    "Oar.Bipbip.end_needs_challenge",
    "Oar.Bipbip.end_recorded",
    "Oar.Bipbip.endOfJob_job",
    "Oar.Bipbip.endOfJob_events",
    "Oar.Bipbip.endOfJob_raises",
    "Oar.Bipbip.endOfJob_others",
    "Oar.Bipbip.finishSeq_raises",
    "Oar.Bipbip.end_nodes_reported",
    "Oar.Bipbip.epilogue_failure_lost_violated",
    "Oar.Bipbip.end_raises_iff",
    "Oar.Bipbip.end_reported"
   ],
   "note": "The registration of the events is proved when the epilogue does not fail and a host can be named; otherwise events are lost, which is proved."
  },
  {
   "property": "C71",
   "status": "partial",
   "theorems": [
    "Oar.Admission.accepted_iff",
    "Oar.Admission.accepted_job",
    "Oar.Admission.known_iff",
    "Oar.Admission.deploy_standby_violated",
    "Oar.Admission.noop_refused_violated",
    "Oar.Admission.newline_type_violated"
   ],
   "note": "Exact conditions of acceptance and exact result proved for all submissions; disagreements proved: deploy=standby escapes the rules on deployments, noop jobs are always refused, a type followed by a newline is accepted."
  },
  {
   "property": "C72",
   "status": "partial",
   "theorems": [
    "Oar.Admission.conditions_required_partial",
    "Oar.Sql.holds_paren_and",
    "Oar.Sql.holds_and",
    "Oar.Admission.drained_violated",
    "Oar.Admission.unbalanced_violated"
   ],
   "note": "Proved (equivalence) for properties with closed quotes and parentheses and groups without OR outside parentheses, from the text of the user to the selection of the scheduler; false otherwise: a group with an OR, or properties with unbalanced parentheses, escape the conditions (witnesses through the whole submission)."
  },
  {
   "property": "C73",
   "status": "partial",
   "theorems": [
    "Oar.Admission.resv_limit_partial",
    "Oar.Admission.resv_limit_violated",
    "Oar.Admission.part_of_name_violated"
   ],
   "note": "Proved for the reservations not yet examined by the meta scheduler; the validated ones are not counted: any number is reachable (proved for all n)."
  },
  {
   "property": "C74",
   "status": "partial",
   "theorems": [
    "Oar.Fifo.fifo_partial",
    "Oar.Fifo.fifo_disjoint",
    "Oar.Fifo.fifo_hierarchy_partial",
    "Oar.Fifo.pick_smallest",
    "Oar.Fifo.fifo_running_violated",
    "Oar.Fifo.fifo_planned_violated",
    "Oar.Fifo.fifo_all_violated",
    "Oar.Fifo.fifo_groups_violated",
    "Oar.Fifo.fifo_other_groups_violated"
   ],
   "note": "Proved for rounds without running job, first group and first level of the first alternative (or one group with the hierarchy). The rest is refuted: a running job makes every round raise, resources of jobs being launched are given again, ALL and BEST drop the last resources, other groups are ignored or may be missing."
  },
  {
   "property": "C75",
   "status": "partial",
   "theorems": [
    "Oar.Basic.basic_best_partial",
    "Oar.Basic.basic_disjoint",
    "Oar.Basic.assign_spec",
    "Oar.Basic.basic_impossible_violated",
    "Oar.Basic.basic_impossible_all_violated",
    "Oar.Basic.basic_alternative_violated",
    "Oar.Basic.basic_groups_violated",
    "Oar.Basic.basic_dependencies_violated",
    "Oar.Basic.basic_inner_violated"
   ],
   "note": "Earliest placement proved for requests of one group when every alternative fits somewhere; absence of double allocation proved for all rounds; the rest is refuted: a job (or an alternative) that fits nowhere gets a date without resource, a request of two groups may get one, dependencies are ignored, a job in a container makes the round raise."
  },
  {
   "property": "C76",
   "status": "partial",
   "theorems": [
    "Oar.Phoenix.run_sound",
    "Oar.Phoenix.run_complete",
    "Oar.Phoenix.phoenix_once_partial",
    "Oar.Phoenix.hard_after_soft",
    "Oar.Phoenix.phoenix_twice_violated",
    "Oar.Phoenix.phoenix_max_violated",
    "Oar.Phoenix.phoenix_zero_violated",
    "Oar.Phoenix.phoenix_forgotten_violated",
    "Oar.Phoenix.phoenix_crash_violated",
    "Oar.Phoenix.phoenix_file_violated"
   ],
   "note": "Choice of the nodes proved exactly for one run and over histories when each node is in one row; the rest is refuted: a node in two rows is rebooted twice, the maximum bounds each kind of each run only, zero means one, a node still broken is forgotten, an interrupted run is repeated, PHOENIX_STATUS_FILE makes the program read another key."
  },
  {
   "property": "C77",
   "status": "partial",
   "theorems": [
    "Oar.Ping.finaud_timeout",
    "Oar.Ping.method_order",
    "Oar.Ping.taktuk_exact",
    "Oar.Ping.timeout_reported",
    "Oar.Ping.nmap_exact_partial",
    "Oar.Ping.finaud_taktuk",
    "Oar.Ping.named_never_reported_violated",
    "Oar.Ping.named_raises_violated",
    "Oar.Ping.no_method_violated",
    "Oar.Ping.generic_command_violated",
    "Oar.Ping.nmap_shared_violated",
    "Oar.Ping.nmap_unknown_violated",
    "Oar.Ping.finaud_never_suspects_violated",
    "Oar.Ping.filterFping_line"
   ],
   "note": "Exact for TakTuk (with the node checker end to end) and, with distinct and known addresses, for nmap; refuted for Sentinelle, the generic command and fping, which report nothing or raise, for nmap with shared or unknown addresses, and without configuration."
  },
  {
   "property": "C78",
   "status": "partial",
   "theorems": [
    "Oar.Cli.exit_spec",
    "Oar.Cli.exit_again_violated",
    "Oar.Cli.select_spec",
    "Oar.Cli.empty_selection_violated",
    "Oar.Cli.oardel_exact",
    "Oar.Cli.oarhold_partial",
    "Oar.Cli.oarhold_stops_violated",
    "Oar.Cli.oarresume_partial",
    "Oar.Cli.oarresume_stops_violated",
    "Oar.Cli.api_any_word_violated",
    "Oar.Cli.signal_partial",
    "Oar.Cli.signal_event_violated",
    "Oar.Cli.signal_raises_violated",
    "Oar.Cli.force_partial",
    "Oar.Cli.force_raises_violated",
    "Oar.Cli.no_selection",
    "Oar.Cli.signal_nothing"
   ],
   "note": "Exact for oardel and for the exit status at its first reading; for oarhold and oarresume when no selected job is refused, for the signals when the jobs have a host, for the forced termination when the jobs exist. Refuted otherwise: a refused job stops oarhold and oarresume without notifying the server, a job without host or an unknown one raises, the status changes at its second reading, an empty selection is not an error, any word in the API request holds the job."
  },
  {
   "property": "C79",
   "status": "partial",
   "theorems": [
    "Oar.Priority.priority_exact_partial",
    "Oar.Priority.priority_restored_partial",
    "Oar.Priority.launch_counts",
    "Oar.Priority.not_configured",
    "Oar.Priority.levels_written",
    "Oar.Priority.type_protected",
    "Oar.Priority.unknown_raises_violated",
    "Oar.Priority.regained_violated",
    "Oar.Priority.timesharing_violated",
    "Oar.Priority.valued_type_violated",
    "Oar.Priority.toggled_exact"
   ],
   "note": "Exact for all histories where the type is only changed for jobs that are not timesharing, whose type has no value and that did not lose it before. Refuted otherwise: the contribution is then subtracted twice. Properties and assignments are constant."
  },
  {
   "property": "C80",
   "status": "partial",
   "theorems": [
    "Oar.Proxy.oarexec_exact",
    "Oar.Proxy.run_exact",
    "Oar.Proxy.leon_exact",
    "Oar.Proxy.routing",
    "Oar.Proxy.one_by_one",
    "Oar.Proxy.together_violated",
    "Oar.Proxy.cut_violated",
    "Oar.Proxy.shell_violated",
    "Oar.Proxy.empty_field_violated",
    "Oar.Proxy.not_text_violated"
   ],
   "note": "Exact for messages given one by one by the socket, with plain fields. Refuted otherwise: messages given together are lost but the first, a message cut in the number acts on another job, the fields are given to the shell as they are, an empty field shifts the others, a text that is not UTF-8 stops the proxy."
  },
  {
   "property": "C81",
   "status": "partial",
   "theorems": [
    "Oar.Config.load_exact_partial",
    "Oar.Config.values_exact",
    "Oar.Config.comment_ignored",
    "Oar.Config.defaults_exact",
    "Oar.Config.hash_violated",
    "Oar.Config.quote_violated",
    "Oar.Config.zeros_violated",
    "Oar.Config.words_violated",
    "Oar.Config.constructor_violated"
   ],
   "note": "Exact for values without hash sign, without quote at their ends, that are not numbers or are integers as Python writes them. Refuted otherwise: a hash sign cuts a quoted value, a final quote is lost (commands of the sample file), leading zeros are lost, some words become numbers or nothing, the defaults given to the constructor are ignored."
  },
  {
   "property": "C82",
   "status": "partial",
   "theorems": [
    "Oar.NodeSetting.maintenance_by_hosts",
    "Oar.NodeSetting.drain_by_ids",
    "Oar.NodeSetting.properties_by_ids",
    "Oar.NodeSetting.properties_by_hosts",
    "Oar.NodeSetting.property_logged",
    "Oar.NodeSetting.state_by_ids",
    "Oar.NodeSetting.state_by_hosts",
    "Oar.NodeSetting.waits_one_host_partial",
    "Oar.NodeSetting.bad_arguments",
    "Oar.NodeSetting.add_and_select",
    "Oar.NodeSetting.add_exact",
    "Oar.NodeSetting.maintenance_on",
    "Oar.NodeSetting.maintenance_off",
    "Oar.NodeSetting.maintenance_round_trip",
    "Oar.NodeSetting.waits_other_hosts_violated",
    "Oar.NodeSetting.unknown_host_violated",
    "Oar.NodeSetting.file_violated",
    "Oar.NodeSetting.unreadable_file_violated",
    "Oar.NodeSetting.maintenance_old_date_violated",
    "Oar.NodeSetting.maintenance_crash_violated",
    "Oar.NodeSetting.maintenance_unknown_violated",
    "Oar.NodeSetting.id_rewritten_violated",
    "Oar.NodeSetting.add_properties_violated",
    "Oar.NodeSetting.property_raises",
    "Oar.Res.protected_columns"
   ],
   "note": "Proved for the selections by identifiers and by hosts of existing resources. Refuted: only the jobs of the last host are waited for, an unknown host is not an error, the hosts of a file keep their end of line, an unreadable file raises, the maintenance may restore an old date or lose it when stopped between its two writes, the identifier of a resource can be rewritten, the properties of an addition of several hosts are written on the last one only."
  },
  {
   "property": "C83",
   "status": "partial",
   "theorems": [
    "Oar.OarQueue.operation_exact",
    "Oar.OarQueue.history_exact",
    "Oar.OarQueue.only_admin",
    "Oar.OarQueue.version_free",
    "Oar.OarQueue.scheduling_effect",
    "Oar.OarQueue.list_exact",
    "Oar.OarQueue.error_changes_nothing",
    "Oar.OarQueue.bad_arguments",
    "Oar.OarQueue.several_violated",
    "Oar.OarQueue.list_only_violated",
    "Oar.OarQueue.unknown_violated",
    "Oar.OarQueue.change_one_violated",
    "Oar.OarQueue.empty_name_violated",
    "Oar.OarQueue.no_user_violated",
    "Oar.OarQueue.remove_waiting_violated"
   ],
   "note": "Proved for single operations and all their histories, and for the effect on the scheduling. Refuted: of several operations only the first is done, an unknown queue is not an error, priority and policy cannot be changed alone, an empty name is accepted and then cannot be named, the variable USER is needed even with OARDO_USER, a queue with waiting jobs can be removed and its jobs are never scheduled."
  },
  {
   "property": "C84",
   "status": "partial",
   "theorems": [
    "Oar.OarProperty.exact",
    "Oar.OarProperty.always_wf",
    "Oar.OarProperty.system_protected",
    "Oar.OarProperty.error_keeps_table",
    "Oar.OarProperty.list_exact",
    "Oar.OarProperty.delete_unknown",
    "Oar.OarProperty.type_violated",
    "Oar.OarProperty.refused_violated",
    "Oar.OarProperty.retype_violated",
    "Oar.OarProperty.rename_error_violated",
    "Oar.OarProperty.any_name_violated",
    "Oar.OarProperty.add_rename_violated",
    "Oar.OarProperty.delete_used_violated",
    "Oar.OarProperty.rename_refused"
   ],
   "note": "Proved for operations that can be done together; the properties of the system are kept whatever the arguments. Refuted: the type of an existing property is not compared, a refused name ends the command with status 0, deleting and adding a property loses it, an error after a renaming leaves the logs and requests renamed, any ASCII text is a name, an added property cannot be renamed, a property used by requests can be deleted."
  },
  {
   "property": "C85",
   "status": "partial",
   "theorems": [
    "Oar.Script.scan_exact",
    "Oar.Script.oarsub_exact",
    "Oar.Script.array_exact",
    "Oar.Script.unknown_refused",
    "Oar.Script.hold_value_refused",
    "Oar.Script.param_file_exact",
    "Oar.Script.no_scan",
    "Oar.Script.join_and",
    "Oar.Script.no_script_raises",
    "Oar.Script.stagein_dropped",
    "Oar.Script.join_violated",
    "Oar.Script.property_violated",
    "Oar.Script.directory_violated",
    "Oar.Script.equals_violated",
    "Oar.Script.two_options_violated",
    "Oar.Script.md5sum_violated",
    "Oar.Script.inline_violated",
    "Oar.Script.after_violated",
    "Oar.Script.unreadable_violated",
    "Oar.Script.array_file_violated",
    "Oar.Script.array_refused"
   ],
   "note": "Proved for the options of the manual written 'name value', but the conditions and the directory. Refuted: -p of the script replaces that of the command line, and the conditions are joined without parentheses; -d of the script is never used; '--queue=x' keeps the sign; a second option in a line is a part of the value; --stagein-md5sum is taken for --stagein; --import-job-key-inline and the bounds of -a are refused; a script or a file of parameters that cannot be read is no error."
  },
  {
   "property": "C86",
   "status": "partial",
   "theorems": [
    "Oar.Keys.keys_exact",
    "Oar.Keys.no_keys",
    "Oar.Keys.key_reads_own",
    "Oar.Keys.own_rights",
    "Oar.Keys.own_contents",
    "Oar.Keys.options_refused",
    "Oar.Keys.both_refused",
    "Oar.Keys.unreadable_refused",
    "Oar.Keys.param_root_violated",
    "Oar.Keys.param_any_violated",
    "Oar.Keys.options_array_violated",
    "Oar.Keys.export_violated",
    "Oar.Keys.atomic_violated",
    "Oar.Keys.implied_violated",
    "Oar.Keys.key_used_iff"
   ],
   "note": "Proved: the keys of all the jobs; all the accesses are those of the user when the script is scanned or the environment already names the user; the keys are always read as the user. Refuted: the file of parameters is read as root, or as anybody the caller names in OARDO_BECOME_USER; a key is never exported (exception, or file emptied and success); the options without -k are ignored for an array; an array with keys may be created in part; OAR_JOB_KEY_FILE does not imply -k."
  },
  {
   "property": "C87",
   "status": "partial",
   "theorems": [
    "Oar.Notify.request_accepted",
    "Oar.Notify.request_sends",
    "Oar.Notify.executed_is_safe",
    "Oar.Notify.insecure_refused",
    "Oar.Notify.no_request",
    "Oar.Notify.bracket_meaning",
    "Oar.Notify.end_complete",
    "Oar.Notify.state_notified",
    "Oar.Notify.notified_exact",
    "Oar.Notify.tags_default",
    "Oar.Notify.ncsRunN_plain",
    "Oar.Notify.tags_violated",
    "Oar.Notify.end_violated",
    "Oar.Notify.deletion_violated"
   ],
   "note": "Proved: the documented requests, the safety of the commands, the complete treatment of the end of a job when the notification works. Refuted: a blank after a comma or a wrong tag is accepted and never notified; a failing mail server or command raises out of set_job_state (the end of the job is never completed) and, for a deletion request, blocks the treatment of all the later events."
  },
  {
   "property": "C88",
   "status": "partial",
   "theorems": [
    "Oar.ApiSubmit.request_exact",
    "Oar.ApiSubmit.same_as_oarsub",
    "Oar.ApiSubmit.jobs_exact",
    "Oar.ApiSubmit.param_exact",
    "Oar.ApiSubmit.param_same",
    "Oar.ApiSubmit.home_replaced",
    "Oar.ApiSubmit.answer_exact",
    "Oar.ApiSubmit.user_kept",
    "Oar.ApiSubmit.name_refused",
    "Oar.ApiSubmit.refused",
    "Oar.ApiSubmit.ignored_violated",
    "Oar.ApiSubmit.reservation_violated",
    "Oar.ApiSubmit.param_violated",
    "Oar.ApiSubmit.negative_violated",
    "Oar.ApiSubmit.home_violated",
    "Oar.ApiSubmit.request_recorded"
   ],
   "note": "Proved: eighteen keys reach the job as given and as with oarsub, the jobs of arrays and parameters, the answers. Refuted: reservation, workdir, resubmit and the files of keys are ignored (a reservation becomes an ordinary job); comments and blank lines of param_file become jobs; a negative array is a success without job; $HOME is replaced only in the first line."
  },
  {
   "property": "C89",
   "status": "partial",
   "theorems": [
    "Oar.ApiProxy.request_allowed",
    "Oar.ApiProxy.file_exact",
    "Oar.ApiProxy.escape_plain",
    "Oar.ApiProxy.request_refused",
    "Oar.ApiProxy.other_user_refused",
    "Oar.ApiProxy.request_served",
    "Oar.ApiProxy.urlparse_http",
    "Oar.ApiProxy.rule_added",
    "Oar.ApiProxy.rule_deleted",
    "Oar.ApiProxy.led_exact",
    "Oar.ApiProxy.clean_exact",
    "Oar.ApiProxy.requests_made",
    "Oar.ApiProxy.serial",
    "Oar.ApiProxy.no_rule_lost",
    "Oar.ApiProxy.save_atomic",
    "Oar.ApiProxy.other_job_violated",
    "Oar.ApiProxy.any_host_violated",
    "Oar.ApiProxy.ended_job_violated",
    "Oar.ApiProxy.purged_job_violated",
    "Oar.ApiProxy.foreign_rule_violated",
    "Oar.ApiProxy.no_file_violated",
    "Oar.ApiProxy.same_process_violated"
   ],
   "note": "Proved: who is served, the effect of a request and of a cleaning on every job, the routing of a job with a rule, serialisability for requests of different processes, atomicity of the file under crashes. Refuted: the prefix of job 1 catches the paths of job 12 without rule; the target can be any host; the rule of an ended job can be made again; the rule of a purged job is never removed; a foreign rule ends the cleaner; the file is never created; two threads of one API process lose a rule (lockf is per process). Moreover oarproxycleaner imports oar.rest_api.proxy_utils, a module that does not exist."
  },
  {
   "property": "C90",
   "status": "partial",
   "theorems": [
    "Oar.Media.path_plain",
    "Oar.Media.path_inj",
    "Oar.Media.as_user",
    "Oar.Media.get_exact",
    "Oar.Media.commands_exact",
    "Oar.Media.ls_negative",
    "Oar.Media.delete_exact",
    "Oar.Media.chmod_exact",
    "Oar.Media.ls_partial",
    "Oar.Media.usable_upload",
    "Oar.Media.special_name_violated",
    "Oar.Media.delete_other_violated",
    "Oar.Media.home_violated",
    "Oar.Media.upload_violated",
    "Oar.Media.tail_zero_violated",
    "Oar.Media.symbolic_mode_violated",
    "Oar.Media.ls_violated"
   ],
   "note": "Proved: all commands run as the user, names without $ , ` and space designate exactly their file, the effects of GET, DELETE and chmod. Refuted: a name with one of these characters designates another file (never read, and another file is deleted); ~ is not replaced; no upload succeeds; tail=0 gives the whole file; symbolic modes are refused; ls lists the names of the directory of the server."
  },
  {
   "property": "C91",
   "status": "partial",
   "theorems": [
    "Oar.ApiSession.not_admin",
    "Oar.ApiSession.state_exact",
    "Oar.ApiSession.states_exact",
    "Oar.ApiSession.create_exact",
    "Oar.ApiSession.delete_exact",
    "Oar.ApiSession.healthy_kept",
    "Oar.ApiSession.pending_committed",
    "Oar.ApiSession.stuck",
    "Oar.ApiSession.state_violated",
    "Oar.ApiSession.create_violated",
    "Oar.ApiSession.create_log_violated",
    "Oar.ApiSession.wait_violated",
    "Oar.ApiSession.limit_violated",
    "Oar.ApiSession.show_violated",
    "Oar.ApiSession.unknown_violated"
   ],
   "note": "Proved: who may write; exact effect of each request within the shared session; deletion commits it and all pending work; the requests that keep the session usable. Refuted: creations and changes of state are acknowledged but not committed, hold the row so that other programs wait, a negative limit sent by anybody makes every later request fail, show always fails, changing an unknown resource succeeds, a creation has no log row."
  },
  {
   "property": "C92",
   "status": "partial",
   "theorems": [
    "Oar.Oarstat.user_plain",
    "Oar.Oarstat.user_flag",
    "Oar.Oarstat.user_named",
    "Oar.Oarstat.fields_exact",
    "Oar.Oarstat.duration_partial",
    "Oar.Oarstat.duration_read",
    "Oar.Oarstat.exit_exact",
    "Oar.Oarstat.actual_partial",
    "Oar.Oarstat.sql_none",
    "Oar.Oarstat.sql_exact",
    "Oar.Oarstat.states_exact",
    "Oar.Oarstat.events_exact",
    "Oar.Oarstat.jobs_exact",
    "Oar.Oarstat.conflict",
    "Oar.Oarstat.user_empty_violated",
    "Oar.Oarstat.fields_unknown_violated",
    "Oar.Oarstat.fields_twice_violated",
    "Oar.Oarstat.duration_suspended_violated",
    "Oar.Oarstat.exit_ambiguous_violated",
    "Oar.Oarstat.actual_merged_violated",
    "Oar.Oarstat.sql_or_violated",
    "Oar.Oarstat.unknown_violated",
    "Oar.Oarstat.gantt_violated",
    "Oar.Oarstat.user_words",
    "Oar.Oarstat.fields_colons",
    "Oar.Oarstat.duration_text",
    "Oar.Oarstat.actual_alternative",
    "Oar.Oarstat.actual_other",
    "Oar.Oarstat.gantt_exact",
    "Oar.Oarstat.sql_or_dates_violated"
   ],
   "note": "Proved: -u, the fields, durations (as text, for all), exit statuses, the text of a request whose groups have different properties, conditions without OR, states and events. Refuted: two groups with the same property (or none) are shown as one; a condition with OR escapes the other filters; exit 9 and signal 9 are the same; suspended jobs have no duration; unknown fields, malformed dates and empty names raise; an unknown job is no error."
  },
  {
   "property": "C93",
   "status": "partial",
   "theorems": [
    "Oar.QuotasFile.plain_exact",
    "Oar.QuotasFile.number_exact",
    "Oar.QuotasFile.share_exact",
    "Oar.QuotasFile.share_bounds",
    "Oar.QuotasFile.digits_point",
    "Oar.QuotasFile.rules_exact",
    "Oar.QuotasFile.load_exact",
    "Oar.QuotasFile.load_calendar",
    "Oar.QuotasFile.period_covers",
    "Oar.QuotasFile.calendar_exact",
    "Oar.QuotasFile.share_violated",
    "Oar.QuotasFile.hours_violated",
    "Oar.QuotasFile.forms_violated",
    "Oar.QuotasFile.wrap_violated",
    "Oar.QuotasFile.night_violated",
    "Oar.QuotasFile.calendar_all_violated",
    "Oar.QuotasFile.blank_violated",
    "Oar.QuotasFile.fields_violated",
    "Oar.QuotasFile.empty_set_violated",
    "Oar.QuotasFile.oneshot_only_violated",
    "Oar.QuotasFile.product_exact",
    "Oar.QuotasFile.default_exact",
    "Oar.QuotasFile.load_keeps"
   ],
   "note": "Proved: integers, ALL, decimals and shares with a short binary form exactly, any decimal share within one unit, keys, hours, weekly periods for every second, the calendar of a file of disjoint periods with a default. Refuted: 0.29*ALL of 100 is 28, fractions of hours are dropped before the conversion, ALL in a period raises, a blank in a key disables the rule, an empty rule set takes the default rules, hours with days through Sunday are dropped, nights have a negative duration, one-shot periods alone raise at each pass."
  },
  {
   "property": "C94",
   "status": "partial",
   "theorems": [
    "Oar.Oarnodes.list_exact",
    "Oar.Oarnodes.columns_exact",
    "Oar.Oarnodes.table_line",
    "Oar.Oarnodes.nodes_exact",
    "Oar.Oarnodes.all_exact",
    "Oar.Oarnodes.resources_exact",
    "Oar.Oarnodes.ids_exact",
    "Oar.Oarnodes.states_exact",
    "Oar.Oarnodes.host_states_exact",
    "Oar.Oarnodes.summary_partial",
    "Oar.Oarnodes.events_since_exact",
    "Oar.Oarnodes.events_last_exact",
    "Oar.Oarnodes.free_violated",
    "Oar.Oarnodes.details_violated",
    "Oar.Oarnodes.unknown_violated",
    "Oar.Oarnodes.nodes_ignored_violated",
    "Oar.Oarnodes.condition_ignored_violated",
    "Oar.Oarnodes.property_violated",
    "Oar.Oarnodes.internal_hidden",
    "Oar.Oarnodes.warning_exact"
   ],
   "note": "Proved: selections, columns, lines, states (JSON and by id), events, and the summary when all the jobs which use resources are running and the states of a node agree. Refuted: resources of jobs being launched or ended are counted as free; the text of -s never shows standby; an unknown node or property is no error; names are ignored with -r or --sql; a condition with -S or -e shows nothing."
  },
  {
   "property": "C95",
   "status": "partial",
   "theorems": [
    "Oar.Round.round_exclusive_partial",
    "Oar.Round.history_exclusive_partial",
    "Oar.Round.history_example",
    "Oar.Round.overdue_violated",
    "Oar.Round.late_reservation_violated",
    "Oar.Round.moved_reservation_violated",
    "Oar.Round.acknowledged_row"
   ],
   "note": "Proved for every history of rounds in which no job outlives its walltime and the security time, without advance reservations, containers, timesharing, placeholders, quotas calendar nor resources given back by suspended jobs. Refuted otherwise: the resources of a job still in its epilogue after its walltime are given to another job; a reservation launched late, or moved because its machine was down, overlaps the next one."
  },
  {
   "property": "C96",
   "status": "partial",
   "theorems": [
    "Oar.Round.launched_request_partial",
    "Oar.Round.launched_example",
    "Oar.Round.byId_grouped",
    "Oar.Round.launched_off_violated"
   ],
   "note": "Proved for every regular round (see C95: no reservation, container, timesharing, calendar, overdue job): start, alternative, resources answering the request, availability; machines alive when the database gives the rows of a job together. Refuted otherwise: the query has no order and a job is launched on an Absent machine. When the groups of a request overlap, their parts may overlap (C12)."
  },
  {
   "property": "C97",
   "status": "partial",
   "theorems": [
    "Oar.Round.round_earliest_partial",
    "Oar.Round.launched_at_once_partial",
    "Oar.Round.earliest_example",
    "Oar.Round.depends_example",
    "Oar.Round.phantom_violated"
   ],
   "note": "Proved for every regular round (see C95) that does not raise, for a job without quotas, at any date by which its dependencies are over (in error, or terminated with the exit code 0 or none) or, for those that are themselves waiting before it in the same group, are placed to end, when the resources held by the running jobs are usable and requests with the same cache key are the same. Strict at one end: a job before must end before (not at) the date. Refuted without the condition on the held resources: a job running on a machine that is no longer usable is placed on the first machine of the table, which then looks taken. Missing: reservations, containers, quotas, dependencies that are running (such a job is skipped, see C10)."
  },
  {
   "property": "C98",
   "status": "partial",
   "theorems": [
    "Oar.Round.round_total_partial",
    "Oar.Round.total_example",
    "Oar.Round.walltime_violated",
    "Oar.Round.level_violated",
    "Oar.Round.dead_violated",
    "Oar.Round.type_violated",
    "Oar.Round.checkpoint_violated",
    "Oar.Round.one_group",
    "Oar.Round.saveRows_join",
    "Oar.Round.saveRows_flush",
    "Oar.Round.saveRows_twice",
    "Oar.Round.stuck_violated"
   ],
   "note": "Proved for every regular round (see C95) in which at most one group of queues has waiting jobs and no date for any of them, each alternative of a waiting job lasts at least a second and asks for levels of the hierarchy, keyword requests meet at least one usable machine, the types of the running jobs can be read and no running best-effort job has a checkpoint. Each condition is refuted when dropped: a waiting job with the walltime 0, an unknown level, a keyword request when all machines are dead, a malformed type of a running job, or a best-effort job with a checkpoint whose machine is needed (the call of get_job_events misses the session) makes every round raise and nothing is launched; so do two groups of queues whose waiting jobs cannot be placed: save_assigns with an empty list inserts the row of the default values, and the primary key refuses it the second time. Missing: reservations, containers, quotas with a calendar, timesharing."
  },
  {
   "property": "C99",
   "status": "partial",
   "theorems": [
    "Oar.Round.promise_kept_partial",
    "Oar.Round.head_launched_partial",
    "Oar.Round.head_example",
    "Oar.Round.slip_violated",
    "Oar.Round.second_violated"
   ],
   "note": "Proved for the first waiting job of the first group (not the best-effort one), whose dependencies are over, without quota, in regular rounds (see C95): its predicted end moves at most one second later than the promise (or than the date of the round), whatever was submitted in between and whichever running jobs ended early; and when the rounds are at least two seconds apart, no best-effort job runs and no machine is Absent, the job is launched after at most as many rounds as the seconds until its promised end, every such round being itself proved to end when at most one group of queues has no date for its jobs (see C98). Refuted as stated: the prediction does slip by one second (200 becomes 201) once the previous job is running, and the second job of the queue can be postponed (150 becomes 270) because a running job ended early. Missing: reservations, containers, quotas, dependencies still awaited, best-effort jobs to kill."
  },
  {
   "property": "C100",
   "status": "partial",
   "theorems": [
    "Oar.WalltimeCli.text_spec",
    "Oar.WalltimeCli.command_partial",
    "Oar.WalltimeCli.command_total_partial",
    "Oar.WalltimeCli.command_example",
    "Oar.WalltimeCli.default_violated",
    "Oar.WalltimeCli.star_violated",
    "Oar.WalltimeCli.status_violated",
    "Oar.WalltimeCli.options_refused",
    "Oar.WalltimeCli.status_shown_partial",
    "Oar.WalltimeCli.force_refused",
    "Oar.WalltimeCli.users_exact",
    "Oar.WalltimeCli.users_example",
    "Oar.WalltimeCli.setting_unscaled",
    "Oar.WalltimeCli.status_limits"
   ],
   "note": "Proved: the accepted texts and their seconds are exactly those written (an end of line is accepted too); an exit status 0 implies the identity, the state, the minimum and the maximum of the queue, and the row recorded; otherwise nothing changes; when each setting has a value for the queue the command does not raise and its status tells the reason. Refuted: with the default settings, a request for a running job of any queue but `default` raises TypeError; the documented list of users `*` is evaluated as Python and raises; the display raises AttributeError for every job that was started. Missing: the texts displayed."
  },
  {
   "property": "C101",
   "status": "partial",
   "theorems": [
    "Oar.KeyRace.keys_apart_partial",
    "Oar.KeyRace.request_kept",
    "Oar.KeyRace.race_example",
    "Oar.KeyRace.mixed_violated",
    "Oar.KeyRace.leftover_violated",
    "Oar.KeyRace.generate_violated"
   ],
   "note": "Proved for all interleavings of any number of processes in which no process treats two submissions at a time nor dies in the middle of one: each submission obtains what it obtains alone (C86), none raises, no file remains. Refuted otherwise: the temporary file is named after the process, so two simultaneous requests to the API server (threads of one process) give the private key of one user to the job of the other; after an interruption the next process with the same number gets its key followed by the end of the old one (the file is not truncated), or cannot generate a key. Missing: keys given in a file."
  },
  {
   "property": "C102",
   "status": "partial",
   "theorems": [
    "Oar.Round.ext_history_exclusive_partial",
    "Oar.Round.ext_exclusive_partial",
    "Oar.Round.ext_disjoint_partial",
    "Oar.Round.goes_on_iff",
    "Oar.Round.stopped_iff",
    "Oar.Round.failure_isolated",
    "Oar.Round.ext_example",
    "Oar.Round.besteffort_first_violated",
    "Oar.Round.two_idle_violated",
    "Oar.Round.quotas_stop",
    "Oar.Round.quotas_nothing",
    "Oar.Round.ext_quotas_example",
    "Oar.Round.reservation_ignored",
    "Oar.Round.external_no_quotas"
   ],
   "note": "Proved for the scheduler kamelot, for all regular rounds (as C95) in which the queue besteffort is the last one and holds the waiting best-effort jobs: exclusive resources for every history mixing internal and external rounds, disjoint plans, a failing scheduler equals an empty queue, a queue is stopped exactly when its scheduler does not end with the code 0. Refuted: with quotas each round stops all the active queues (kamelot.main calls resource_set without arguments); reservations to schedule are never examined; when besteffort comes before another queue two jobs are launched on the same machine; the second queue in which no job can be placed is stopped. Missing: accepted reservations, containers, as in C95."
  },
  {
   "property": "C103",
   "status": "partial",
   "theorems": [
    "Oar.EndRound.finish_fair",
    "Oar.EndRound.completes_iff",
    "Oar.EndRound.answers",
    "Oar.EndRound.answers_example",
    "Oar.EndRound.exception_nothing_asked",
    "Oar.EndRound.lost_reservation",
    "Oar.EndRound.lost_forever",
    "Oar.EndRound.lost_example",
    "Oar.EndRound.resume_never",
    "Oar.EndRound.noop_resume_blocks",
    "Oar.EndRound.noop_example",
    "Oar.EndRound.otherJobs_iff",
    "Oar.EndRound.resume_resources_violated",
    "Oar.EndRound.script_example"
   ],
   "note": "Proved: whatever the exceptions, states and messages agree (a reservation becomes Waiting only with a received confirmation, no false confirmation); the exact condition under which the round ends; in that case every answer is given and nothing else changes. Refuted for all inputs: an accepted reservation whose client is gone stops this round and all the following ones as long as it lasts (add_new_event is called without session), its deletion is never asked; a suspended job is never resumed; a noop job to resume stops the round before any answer; the jobs of other resources, but not the running ones, prevent a resumption. Missing: the texts of the messages, OAR2 launching."
  },
  {
   "property": "C104",
   "status": "partial",
   "theorems": [
    "Oar.ApiJobs.no_token",
    "Oar.ApiJobs.only_allowed",
    "Oar.ApiJobs.deletion_exact",
    "Oar.ApiJobs.checkpoint_exact",
    "Oar.ApiJobs.resumption_exact",
    "Oar.ApiJobs.signal_violated",
    "Oar.ApiJobs.signal_zero",
    "Oar.ApiJobs.unknown_word_violated",
    "Oar.ApiJobs.array_example",
    "Oar.ApiJobs.requests_example"
   ],
   "note": "Proved: nothing changes without a valid token; for every request only jobs that are asked for and on which the user of the token may act get a deletion request or an event, and the jobs themselves are never changed; exact effect and exit_status of a deletion, of a checkpoint, of a resumption. Refuted for all inputs: a number of signal is never delivered (status 500 with the event of a checkpoint recorded, since the number is added to a text); the signal 0 is a checkpoint; every unknown word in the path holds the job. Missing: identifiers with signs or blanks, texts of the answers."
  },
  {
   "property": "C105",
   "status": "partial",
   "theorems": [
    "Oar.Signal.kill_exact",
    "Oar.Signal.signal_exact",
    "Oar.Signal.sent_only",
    "Oar.Signal.sent_some",
    "Oar.Signal.any_script",
    "Oar.Signal.user_runs_anything",
    "Oar.Signal.empty_signal_deletes",
    "Oar.Signal.signal_keeps",
    "Oar.Signal.text_example",
    "Oar.Signal.script_example"
   ],
   "note": "Proved, against a separate description of a fragment of the shell: for texts of letters and digits, the commands executed are exactly the expected ones, in order, each after the success of the previous ones, for every behaviour of the node; only for jobs on which the user may act and on their host; a signal that is not empty never deletes. Refuted for all inputs: for every script that the shell accepts (without simple quotes) there is a text of signal with which every user having a running job makes the node execute the whole script with the account of OAR; the empty text deletes the job. Missing: the rest of the language of the shell, ssh."
  },
  {
   "property": "C106",
   "status": "partial",
   "theorems": [
    "Oar.Remote.success_iff",
    "Oar.Remote.bad_exact",
    "Oar.Remote.bad_once",
    "Oar.Remote.timeout_hides",
    "Oar.Remote.other_name_violated",
    "Oar.Remote.launched_iff",
    "Oar.Remote.hostFile_lines",
    "Oar.Remote.cpusets_exact",
    "Oar.Remote.started_after_success",
    "Oar.Remote.answer_example",
    "Oar.Remote.launched_example",
    "Oar.Remote.cpusets_example"
   ],
   "note": "Proved for all outputs that end in time: the bad hosts are exactly those without the line of success; the cpusets are exactly those of the assigned resources; a job that is not a reservation and is started with cpusets created in time has a success of every host. Refuted for all inputs: a time-out reports no host; a host whose name has another character (a colon) is always bad. Missing: taktuk, ssh, letters outside of ASCII; when the creation does not end in time the job is started (see C68)."
  },
  {
   "property": "C107",
   "status": "partial",
   "theorems": [
    "Oar.Archive.ended_archived",
    "Oar.Archive.live_current",
    "Oar.Archive.occupied_exact",
    "Oar.Archive.free_checked",
    "Oar.Archive.launch_exact",
    "Oar.Archive.end_others",
    "Oar.Archive.nodes_exact",
    "Oar.Archive.rows_kept",
    "Oar.Archive.sqlite_violated",
    "Oar.Archive.nodes_violated",
    "Oar.Archive.crash_violated",
    "Oar.Archive.relaunch_violated",
    "Oar.Archive.empty_violated",
    "Oar.Archive.archive_example",
    "Oar.Archive.state_written"
   ],
   "note": "Proved for all histories without crash on a database other than sqlite. Refuted for all inputs: with sqlite nothing is archived; a crash (or an exception of a notification) between the final state and the archiving leaves the nodes occupied for ever; a crash between the writing of the resources and the state toLaunch makes each later launching raise; the nodes that failed at the start stay with a database other than PostgreSQL. Missing: the race of a hold with a launching."
  },
  {
   "property": "C108",
   "status": "partial",
   "theorems": [
    "Oar.Kao.Sharing.shared_only_if_partial",
    "Oar.Kao.Sharing.shared_is_covered",
    "Oar.Kao.Sharing.search_takes_partial",
    "Oar.Kao.Sharing.history_example",
    "Oar.Kao.Sharing.user_word",
    "Oar.Kao.Sharing.same_user_violated",
    "Oar.Kao.Sharing.one_sided_violated",
    "Oar.Kao.Sharing.placeholder_violated",
    "Oar.Kao.Sharing.same_name_violated"
   ],
   "note": "Proved for all sequences of insertions, each where the timeline says the job may be (which the search does when some resource is usable in the whole window), without job both timesharing and related to a placeholder. Refuted: jobs with timesharing=user,* of the same user never share (the word user is recorded instead of the name); a job that shares with its user only is put with another; when the jobs are inserted again in the order of their dates, a placeholder inserted after its guest proposes all its resources again; a second placeholder of the same name replaces the first."
  },
  {
   "property": "C109",
   "status": "partial",
   "theorems": [
    "Oar.Kao.Temporal.calendar_timeline_partial",
    "Oar.Kao.Temporal.search_rules_partial",
    "Oar.Kao.Temporal.search_keeps_rules",
    "Oar.Kao.Temporal.insertion_keeps_rules",
    "Oar.Kao.Temporal.raises_violated",
    "Oar.Kao.Temporal.wrong_rules_violated",
    "Oar.Kao.Temporal.oneshot_violated"
   ],
   "note": "Proved on Mondays at midnight, for all calendars whose periods tile the week, without one-shot period. Refuted otherwise: the construction raises for all calendars and dates such that more time has passed since Monday than the longest period lasts; on a Monday at one in the morning the rules of the next period are applied; after a one-shot period the periods of the week are shifted."
  },
  {
   "property": "C110",
   "status": "partial",
   "theorems": [
    "Oar.Interactive.listen_exact",
    "Oar.Interactive.printed_exact",
    "Oar.Interactive.loop_prev",
    "Oar.Interactive.reservation_exact",
    "Oar.Interactive.dialogue_example",
    "Oar.Interactive.refused_waits_violated",
    "Oar.Interactive.killed_waits_violated",
    "Oar.Interactive.held_reservation_violated"
   ],
   "note": "Proved: after which message the client connects or exits, what it prints, and the answer to a reservation. Refuted: after the announces that the job is refused (one newline too many) and that it is killed (another text than the one expected) the client waits for ever; the repeated predictions are printed although the code compares them; a reservation held when submitted is said to be rejected."
  },
  {
   "property": "C111",
   "status": "partial",
   "theorems": [
    "Oar.Connect.local_exact",
    "Oar.Connect.node_exact",
    "Oar.Connect.exports_exact",
    "Oar.Connect.connected_iff",
    "Oar.Connect.refused_exact",
    "Oar.Connect.cpuset_exact",
    "Oar.Connect.signal_exact",
    "Oar.Connect.project_violated",
    "Oar.Connect.status_violated",
    "Oar.Connect.no_host_violated",
    "Oar.Connect.example_usual",
    "Oar.Connect.example_paths",
    "Oar.Connect.example_connected"
   ],
   "note": "Proved for jobs whose fields have no special character for a shell: the command of the frontend, the two commands of the node, the variables; who is connected; without X11. Refuted: the project of a submission is not checked, and a project ;c; makes the shell of oar on the frontend execute c; of a directory with spaces only the first word is used; every exit status from 0 to 255 is reported as 0, the messages for 2 and 255 never appear and the job is ended; a job without node raises an exception."
  },
  {
   "property": "C112",
   "status": "partial",
   "theorems": [
    "Oar.Report.user_report",
    "Oar.Report.user_report_aligned",
    "Oar.Report.period_exact",
    "Oar.Report.period_bounds",
    "Oar.Report.used_additive",
    "Oar.Report.all_users",
    "Oar.Report.shown_windows",
    "Oar.Report.history_ABC",
    "Oar.Report.period_read",
    "Oar.Report.period_sound",
    "Oar.Report.period_violated",
    "Oar.Report.local_days_violated",
    "Oar.Report.sql_violated",
    "Oar.Report.last_window_violated"
   ],
   "note": "Proved for every history: the figures are exactly those of the whole windows met by the period (enlarged by less than a window at each end), per user, per project and in the array; exactly those of the period when its dates are multiples of the window size; the text of the period. Refuted: the days are local while the windows are those of UTC, so that in another time zone a day shows what was used on another one and successive days do not add up; --sql restricts the figures of the user and not those of the projects; the end of the last window is the one of the type with most seconds only; what follows the second date is ignored. Not modelled: the quoting of the user in the query, the rendering, the last karma."
  },
  {
   "property": "C113",
   "status": "partial",
   "theorems": [
    "Oar.Tokens.accepted_sound",
    "Oar.Tokens.accepted_complete",
    "Oar.Tokens.revocation_ends_chains",
    "Oar.Tokens.revocation_removable",
    "Oar.Tokens.renewed_forever_violated",
    "Oar.Tokens.late_revocation_violated",
    "Oar.Tokens.same_second_violated",
    "Oar.Tokens.broken_file_violated",
    "Oar.Tokens.whoami_violated",
    "Oar.Tokens.tokens_example"
   ],
   "note": "Proved for every history, assuming only that a token that decodes is one of those delivered: the owner, the age and the revocations of an accepted token; exactly which tokens are accepted; a revocation whose date is later than the start that reads it ends all the chains of renewals; its entry can be removed after the duration of the tokens. Refuted: renewals make a token last forever; a revocation dated before the start of the API that reads it does not end the tokens renewed in between; tokens of the same second survive; a file of revocations that does not parse revokes nothing; whoami ignores the revocations. Not modelled: the signature (trusted), a change of the configuration or of the secret."
  },
  {
   "property": "C114",
   "status": "partial",
   "theorems": [
    "Oar.Details.list_exact",
    "Oar.Details.list_short",
    "Oar.Details.one_exact",
    "Oar.Details.one_short",
    "Oar.Details.views_agree",
    "Oar.Details.file_name_exact",
    "Oar.Details.types_exact",
    "Oar.Details.plain_type",
    "Oar.Details.valued_type",
    "Oar.Details.token_type",
    "Oar.Details.one_unknown_violated",
    "Oar.Details.details_false_violated",
    "Oar.Details.two_tokens_violated"
   ],
   "note": "Proved for all tables with unique identifiers, all pages and all orders of the rows: each item tells exactly the columns and the details of its job; the view of one job agrees with the list; every %jobid% of the files is replaced; all the types of different names are told with their values. Refuted: an unknown job raises (500) instead of 404; details=false in a list gives the details; of two tokens only one is told. Not modelled: the properties of a group that are NULL; letters outside ASCII in the types; statuses are not negative."
  },
  {
   "property": "C115",
   "status": "partial",
   "theorems": [
    "Oar.Database.connect_exact",
    "Oar.Database.sqlite_exact",
    "Oar.Database.missing_type",
    "Oar.Database.at_violated",
    "Oar.Database.percent_violated",
    "Oar.Database.base_at_violated",
    "Oar.Database.zeros_violated",
    "Oar.Database.type_violated"
   ],
   "note": "Proved for all configurations without two names differing only by the case and all texts without the characters that have a meaning in the address (spelled out in Writable): the connection is to the machine, port, database and account of the configuration; and for the files of SQLite. Refuted, each for all configurations: a password with @ is cut and what follows is taken for the machine; a password with %XX is decoded; without a password a name of database with @ makes the machine a part of the login; leading zeros of a password of digits are lost; a type made of digits raises. Not modelled: floating-point values, the escapes above 127, the read-only account is modelled but no program uses it."
  },
  {
   "property": "C116",
   "status": "partial",
   "theorems": [
    "Oar.EnergyHist.halt_idle_partial",
    "Oar.EnergyHist.idle_halted",
    "Oar.EnergyHist.woken_kept",
    "Oar.EnergyHist.end_recorded",
    "Oar.EnergyHist.cut_violated",
    "Oar.EnergyHist.running_violated"
   ],
   "note": "Proved for all histories: when a node is halted, each job placed on one of its alive resources ended more than the idle delay before, except in two cases; conversely the nodes that are idle are halted. The two cases are refutations: a crash between the two commits of the end of a job (its node is halted at once, the date of the last job not being written), and a node suspected when the round begins and alive again when it ends (halted while its job runs). Not modelled: a delay between the two commits while other jobs end on the same resources; clocks that go back."
  },
  {
   "property": "C117",
   "status": "partial",
   "theorems": [
    "Oar.Pages.resources_pages_partial",
    "Oar.Pages.resource_jobs_pages_partial",
    "Oar.Pages.jobs_pages_partial",
    "Oar.Pages.events_one_page",
    "Oar.Pages.resources_missed_violated",
    "Oar.Pages.jobs_missed_violated",
    "Oar.Pages.resource_jobs_twice_violated",
    "Oar.Pages.jobs_twice_violated",
    "Oar.Pages.events_violated"
   ],
   "note": "Proved for the three lists that are put in order, for all histories: what is given was in the list; nothing is missed when no row leaves the list during the reading; nothing is given twice when the rows that enter have new identifiers; for the events, one page large enough. Refuted for all lists of more than a page: a row of the first page leaves and another one is never given; an older job enters and a row is given twice; the query of the events has no order, and an event may be missed and another given twice although nothing changes."
  },
  {
   "property": "C118",
   "status": "partial",
   "theorems": [
    "Oar.GretaAsk.idle_partial",
    "Oar.GretaAsk.keepalive_free_partial",
    "Oar.GretaAsk.finishing_violated",
    "Oar.GretaAsk.keepalive_violated",
    "Oar.GretaAsk.can_wake_exact",
    "Oar.GretaAsk.recorded_exact",
    "Oar.GretaAsk.wake_date",
    "Oar.GretaAsk.description_violated",
    "Oar.GretaAsk.commands_exact",
    "Oar.GretaAsk.option_violated",
    "Oar.GretaAsk.view_alive",
    "Oar.GretaAsk.event_fields"
   ],
   "note": "Proved: the idle nodes and the minimum of free nodes of each class when no job is Finishing (and, for the minimum, when the resources of a node are in one state); the nodes that may be woken up; the events and the date of the last wake-up; the commands for names without special character. Refuted: for all databases a node whose job is in its epilogue is counted as idle, so that the last free node is halted; the description of an event names the node of the last command, whichever its kind; a node named -n gives an empty input."
  },
  {
   "property": "C119",
   "status": "partial",
   "theorems": [
    "Oar.Messages.submission_partial",
    "Oar.Messages.submission_unique",
    "Oar.Messages.round_partial",
    "Oar.Messages.save_exact",
    "Oar.Messages.waiting_partial",
    "Oar.Messages.units_violated",
    "Oar.Messages.walltime_violated",
    "Oar.Messages.late_violated",
    "Oar.Messages.late_submitted_partial",
    "Oar.Messages.lost_partial",
    "Oar.Messages.karma_read_partial",
    "Oar.Messages.negative_violated",
    "Oar.Messages.last_karma_exact",
    "Oar.Messages.last_karma_violated",
    "Oar.Messages.forged_violated",
    "Oar.Messages.name_violated"
   ],
   "note": "Proved: for texts without comma nor space, what is read in the message of a submission and its uniqueness; the resources, kind, queue and name in the messages of the rounds, for all histories; the reduction of the resources (no = in the texts); the reduction of the walltime on the messages of submissions; the reading of a non negative decimal karma; which row the last karma is read in. Refuted: once a job has a date its message gives the walltime plus the security time in seconds; a running job has neither walltime, project, types nor karma in its message; the reduction of the walltime is never written, because the rounds do not write the form that the correction looks for; negative karmas are not printed and the last karma is only read in jobs without start date; names and types with commas forge fields."
  },
  {
   "property": "C120",
   "status": "partial",
   "theorems": [
    "Oar.Visu.shown_exact",
    "Oar.Visu.finished_exact",
    "Oar.Visu.listed_partial",
    "Oar.Visu.hidden_violated"
   ],
   "note": "Proved: for all histories of rounds interrupted anywhere, the plan shown is exactly the plan of the last round that began to replace it when this round has finished, and is empty otherwise, hence never a mixture; after a finished round every unfinished planned job is in the lists of the intervals that meet its planned interval. Refuted: between the two commits of the replacement, and until the end of a later round when the round stops there, every waiting job submitted before the interval is missing from its list."
  },
  {
   "property": "C121",
   "status": "partial",
   "theorems": [
    "Oar.WalltimeRound.considered_exact",
    "Oar.WalltimeRound.round_partial",
    "Oar.WalltimeRound.round_completes_partial",
    "Oar.WalltimeRound.round_example",
    "Oar.WalltimeRound.other_moldables_violated",
    "Oar.WalltimeRound.container_violated",
    "Oar.WalltimeRound.order_violated",
    "Oar.WalltimeRound.force_lost_violated",
    "Oar.WalltimeRound.force_lost_example",
    "Oar.WalltimeRound.timesharing_violated",
    "Oar.WalltimeRound.timesharing_example",
    "Oar.WalltimeRound.container_gone_violated",
    "Oar.WalltimeRound.crash_violated",
    "Oar.WalltimeRound.commits_last",
    "Oar.WalltimeRound.susp_exact",
    "Oar.WalltimeRound.inner_exact",
    "Oar.WalltimeRound.call_violated",
    "Oar.WalltimeRound.zero_security_violated",
    "Oar.WalltimeRound.shared_blocks_violated",
    "Oar.WalltimeRound.pair_blocks_violated"
   ],
   "note": "Proved for all databases and orders of the rows: the jobs considered and their resources are exact; nothing else changes, even when the round raises; what is granted is conserved, bounded by the request, the increment, the container, the next jobs, and is maximal; a request left has a reason; sufficient conditions for the round not to raise. Refuted: every moldable of the job gets the new walltime; a container is reduced under its inner jobs; the result depends on the order of the rows; force and delay are lost at the first partial grant; timesharing by user or name, or a container that is over, makes the round raise; a crash between two commits records time as granted which is not given; the metascheduler calls the function without two of its arguments, so that it always raises; with a null security time the next job is overlapped; jobs sharing by user and name block each other. Assumed: names without `$job_name`, dates after the epoch."
  },
  {
   "property": "C122",
   "status": "partial",
   "theorems": [
    "Oar.Accounting.pass_complete",
    "Oar.Accounting.reinitialize_exact",
    "Oar.Accounting.reinitialize_history",
    "Oar.Accounting.delete_before_partial",
    "Oar.Accounting.version_inert",
    "Oar.Accounting.delete_zero_violated",
    "Oar.Accounting.crash_partial",
    "Oar.Accounting.crash_prefix",
    "Oar.Accounting.crash_twice_violated",
    "Oar.Accounting.crash_lost_violated",
    "Oar.Accounting.accounts_example"
   ],
   "note": "Proved for all accounts: a complete run is that of C20; after a reinitialisation one run is exact; the deletion is exact for N other than 0; when no window is created, an interrupted run has saved nothing; in every case what is saved is the state after some statement of the run. Refuted: the creation of a window commits what precedes, so a run that is killed counts a consumption twice, or marks all the jobs as accounted and loses the consumption of those that remain; --delete-before 0 updates the accounts instead."
  },
  {
   "property": "C123",
   "status": "partial",
   "theorems": [
    "Oar.RemoveCmd.command_partial",
    "Oar.RemoveCmd.refused",
    "Oar.RemoveCmd.killed_exact",
    "Oar.RemoveCmd.active_partial",
    "Oar.RemoveCmd.unknown_violated",
    "Oar.RemoveCmd.twice_violated",
    "Oar.RemoveCmd.running_violated",
    "Oar.RemoveCmd.command_example"
   ],
   "note": "Proved for all tables: on different resources that exist the final tables and the exit status are exact, wherever the command is killed; the other users are refused; jobs that are not over and use no removed resource keep their row, resources and dependents. Refuted: a resource that does not exist, or is given twice, stops the command, so that it cannot be run again after it was killed; a running job that uses a removed resource disappears, its other resources are free while it runs, its dependents start, its moldables remain."
  },
  {
   "property": "C124",
   "status": "partial",
   "theorems": [
    "Oar.StatProps.dict_partial",
    "Oar.StatProps.lines_partial",
    "Oar.StatProps.array_exact",
    "Oar.StatProps.no_job",
    "Oar.StatProps.twice_violated",
    "Oar.StatProps.absent_violated",
    "Oar.StatProps.shown_example",
    "Oar.StatProps.ambiguous_violated"
   ],
   "note": "Proved for all tables: for different jobs, those that have a resource are shown, each with exactly its resources and their properties; the plain display has the same properties; the jobs of an array are exact. Refuted: a job named twice has each resource twice; a job without resource or that does not exist is left out silently; the plain lines do not tell the jobs, and two resources with different values may have the same line."
  },
  {
   "property": "C125",
   "status": "partial",
   "theorems": [
    "Oar.Round.reservations_recorded_partial",
    "Oar.Round.accepted_kept",
    "Oar.Round.accepted_blocks",
    "Oar.Round.exNext_blocks",
    "Oar.Round.exKept",
    "Oar.Round.exResv_queue",
    "Oar.Round.exResv_hyp",
    "Oar.Round.alternatives_violated",
    "Oar.Round.inner_violated"
   ],
   "note": "Proved for all lists of reservations and all timelines, when no reservation of the queue accepted in a former round is still waiting, and the walltimes contain the security time: answers, rows, predictions, resources and the timeline left to the next queues; a later round keeps what was accepted and its timeline gives it to nobody else. Refuted: only the first alternative of a request is examined; a reservation inside a container is placed outside of it."
  },
  {
   "property": "C126",
   "status": "partial",
   "theorems": [
    "Oar.Load.busy_exact",
    "Oar.Load.busy_partial",
    "Oar.Load.busy_violated",
    "Oar.Load.busy_example",
    "Oar.Load.stress_exact",
    "Oar.Load.lines_exist",
    "Oar.Load.stress_example",
    "Oar.Load.notify_exact",
    "Oar.Load.notify_violated"
   ],
   "note": "Proved for all tables and texts: the count is the number of the resources of the jobs to be launched, running or resuming, each once, at most the number of the resources not given back, equal exactly when no resource is held by other jobs only; the stress factor is the last one written; oarnotify sends exactly for oar and root. Refuted: the resources of the jobs being launched, suspended or finishing are not counted; the user chooses the name oarnotify checks."
  },
  {
   "property": "C127",
   "status": "partial",
   "theorems": [
    "Oar.Res.sweep_exact",
    "Oar.Res.sweep_reports",
    "Oar.Res.gone_suspected",
    "Oar.Res.exDesk_history",
    "Oar.Res.exDesk_sweep",
    "Oar.Res.gone_violated",
    "Oar.Res.once_violated"
   ],
   "note": "Proved for all histories: each row after the sweep, the reports, the message to the server, and the state after NodeChangeState. Refuted by two witnesses: a resource Alive for longer than DEAD_SWITCH_TIME becomes Dead although Suspected is reported; the report is repeated until the states are changed. Histories are those of PostgreSQL with resources created by the commands (as in C51)."
  }
 ]
}