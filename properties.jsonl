{"id": "C01", "title": "The availability timeline stays a partition", "statement": "Starting from a fresh SlotSet (one slot [begin, MAX_TIME], or any single slot), after any sequence of split_at_before / split_at_after / split_slots calls the slots still tile exactly [begin, end]: walking from the first slot along `next` visits every slot once, `prev` is the inverse of `next`, every slot has b <= e, each slot begins one second after the previous one ends, the first begins at `begin`, the last ends at `end`, and ids are pairwise distinct.", "quantifier": "every initial slot, every sequence of splits at every date accepted by the API, every job inserted", "why_tests_cant": "A unit test fixes one or two splits; the linked structure is mutated in place by an unbounded history of splits with boundary cases (slot of size one, date equal to the begin, first or last slot).", "anchors": ["oar/kao/slot.py: SlotSet.split_at_before, SlotSet.split_at_after, SlotSet.split_slots, SlotSet.new_id"]}
{"id": "C02", "title": "Inserting a job reserves exactly its window", "statement": "After split_slots for a job on slots that encompass its window, the set of free resources at time t is the old one minus the job's resources if start_time <= t < start_time + walltime, and is unchanged at every other t. (The code violates this when a slot ends exactly at start_time + walltime: it then reserves one second too many.)", "quantifier": "every well-formed timeline, job window, resource set and time t", "why_tests_cant": "The failing case needs a boundary of an earlier job to coincide with start+walltime; tests only check typical boundaries.", "anchors": ["oar/kao/slot.py: SlotSet.split_slots, SlotSet.sub_slot_during_job"]}
{"id": "C03", "title": "No resource is given to two jobs at the same time", "statement": "After a scheduling pass over any list of waiting jobs (none of them timesharing or placeholder), any two jobs placed at the same level (both on the platform, or both in the same container) that received a start time and resources and whose windows [start, start+walltime) intersect hold disjoint resource sets. (Violated when a user labels a container 'default': its resources are given back to the platform.)", "quantifier": "every platform, hierarchy, list of jobs with any moldable requests, any order, any previously reserved timeline", "why_tests_cant": "Requires a global invariant relating all earlier allocations to the free timeline; tests sample a few jobs.", "anchors": ["oar/kao/scheduling.py: schedule_id_jobs_ct, assign_resources_mld_job_split_slots, find_first_suitable_contiguous_slots_no_quotas", "oar/kao/slot.py: SlotSet.split_slots"]}
{"id": "C04", "title": "A job only receives resources that are free during its whole window", "statement": "Whenever a waiting job (neither timesharing nor placeholder) is assigned a start time and resources, each of these resources was free in the timeline at every second of [start, start+walltime), the window lies inside the timeline, and the resources are non-empty; hence it never overlaps previously scheduled jobs inserted in the timeline nor resources outside the platform.", "quantifier": "every timeline produced by the API, every job request", "why_tests_cant": "Universal over timelines and requests.", "anchors": ["oar/kao/scheduling.py: find_first_suitable_contiguous_slots_no_quotas, find_first_suitable_contiguous_slots_quotas", "oar/kao/slot.py: intersec_itvs_slots, SlotSet.traverse_with_width"]}
{"id": "C05", "title": "A granted hierarchical request has the requested shape", "statement": "For a one-level request of n>0 blocks the answer is the union of exactly n distinct fully available blocks of that level; for a request over several levels it is built of exactly the requested number of blocks of the top level, each containing exactly the requested number of sub-blocks, recursively, and every resource returned is available.", "quantifier": "every hierarchy (any list of blocks), number of levels, request counts, available set", "why_tests_cant": "Unbounded nesting and block counts.", "anchors": ["oar/lib/hierarchy.py: extract_n_scattered_block_itv, find_resource_hierarchies_scattered, find_resource_n_h"]}
{"id": "C06", "title": "A one-level request succeeds exactly when enough whole blocks are free", "statement": "For n>0 extract_n fails (returns the empty set) exactly when fewer than n blocks of the level are entirely available (non-empty blocks), and otherwise takes the first n such blocks in the platform order. ALL succeeds iff every block is free, BEST takes all free blocks, HALF_BEST half of them (rounded down).", "quantifier": "every block list, available set and n", "why_tests_cant": "Completeness (no false refusal) ranges over all availabilities.", "anchors": ["oar/lib/hierarchy.py: extract_n_scattered_block_itv, extract_all_best_half_scattered_block_itv"]}
{"id": "C07", "title": "More free resources never make a request fail", "statement": "If a request can be satisfied from an available set it can still be satisfied from any larger available set; consequently starting the search at the slot where an identical request last succeeded (the search cache) never skips an earlier feasible start.", "quantifier": "all pairs of available sets, all requests, all histories of allocations since the cache entry was written", "why_tests_cant": "Relational property over pairs of inputs and histories.", "anchors": ["oar/lib/hierarchy.py: find_resource_hierarchies_scattered", "oar/kao/scheduling.py: find_first_suitable_contiguous_slots_no_quotas (cache)", "oar/lib/job_handling.py: set_jobs_cache_keys"]}
{"id": "C08", "title": "First fit: no earlier slot could have hosted the job", "statement": "When a request is granted at some slot of the timeline, for every earlier candidate slot (from the search start) either the remaining timeline is too short for the walltime or the request cannot be satisfied from the resources free throughout the walltime window from that slot; when it is refused, no candidate slot can host it.", "quantifier": "every timeline, request, walltime", "why_tests_cant": "Universally quantified optimality statement.", "anchors": ["oar/kao/scheduling.py: find_first_suitable_contiguous_slots_no_quotas", "oar/kao/slot.py: SlotSet.traverse_with_width"]}
{"id": "C09", "title": "A moldable job gets the alternative that ends first", "statement": "Among the alternatives for which a placement is found, the selected one has the smallest end date, the earliest listed alternative winning ties; the job is left unscheduled (start_time = -1, no resource, moldable_id = -1, timeline untouched) exactly when no alternative can be placed.", "quantifier": "every list of alternatives and timeline (dates below 2^32)", "why_tests_cant": "Ranges over any number of alternatives.", "anchors": ["oar/kao/scheduling.py: assign_resources_mld_job_split_slots"]}
{"id": "C10", "title": "A job never starts before the jobs it depends on end", "statement": "If a job depends on waiting jobs that were scheduled earlier in the same pass, it starts at or after each of their start+walltime; a job depending on a job that failed with non-zero exit code, that is still running, or that is absent from the pass is not scheduled. (The code violates the first clause in boundary cases and when the dependency itself could not be scheduled.)", "quantifier": "all dependency lists, timelines and orders of jobs", "why_tests_cant": "The failing schedules need a precise coincidence of boundaries or an unschedulable dependency.", "anchors": ["oar/kao/scheduling.py: schedule_id_jobs_ct (Dependencies), find_first_suitable_contiguous_slots_no_quotas", "oar/kao/slot.py: SlotSet.slot_id_at"]}
{"id": "C11", "title": "Timesharing jobs only share with compatible timesharing jobs", "statement": "A timesharing (or placeholder-allowed) job only receives resources which, in every slot of its window, are either free or shareable with it according to the slot's timesharing (resp. placeholder) table. (The code violates this: an empty intermediate intersection is re-seeded.)", "quantifier": "all timelines with sharing tables, windows, users and job names", "why_tests_cant": "Needs a window whose first slots have no common resource.", "anchors": ["oar/kao/slot.py: intersec_ts_ph_itvs_slots"]}
{"id": "C12", "title": "The groups of one request receive distinct resources", "statement": "A request made of several groups (group1+group2) receives disjoint resources for each group, so that the number of resources is the sum of the groups'. (The code searches each group in the same available set, so the groups may be given the same resources.)", "quantifier": "all requests with several groups", "why_tests_cant": "Depends on the relation between groups for every hierarchy.", "anchors": ["oar/kao/scheduling.py: find_resource_hierarchies_job"]}
{"id": "C13", "title": "An inner job stays inside its container", "statement": "When a container job is scheduled and its slot set is created from it, every inner job subsequently scheduled in it uses only the container's resources and fits inside [container start, container start + walltime - security time].", "quantifier": "all containers, all sequences of inner jobs", "why_tests_cant": "Unbounded sequence of inner jobs.", "anchors": ["oar/kao/scheduling.py: schedule_id_jobs_ct (container)", "oar/kao/slot.py: SlotSet"]}
{"id": "C14", "title": "An accepted advance reservation is placed exactly as requested on free resources", "statement": "When a pending advance reservation is accepted its start time is the requested one (or now if it is slightly late), its resources satisfy the request and were free in every slot up to its end minus the security time; otherwise it is put in error; resources it receives are removed from the timeline seen by later reservations.", "quantifier": "all timelines, lists of pending reservations", "why_tests_cant": "Interaction of successive reservations over arbitrary timelines.", "anchors": ["oar/kao/meta_sched.py: check_reservation_jobs, gantt_init_results / handle_waiting_reservation_jobs"]}
{"id": "C15", "title": "Quotas are never exceeded", "statement": "When quotas are enabled and a job is accepted in a window, then in every slot of the window (grouped by rule set) the busy-resource, running-job and resource-time counters including this job do not exceed the limits of the rule that applies to the job. (Violated for jobs with several types: only the first one is looked at, so a limit on another of its types is ignored.)", "quantifier": "all rule sets, counters, jobs and windows", "why_tests_cant": "Universally quantified over rule tables and histories.", "anchors": ["oar/kao/quotas.py: Quotas.check, Quotas.check_slots_quotas, Quotas.find_applicable_rule, Quotas.combine"]}
{"id": "C16", "title": "Quota counters equal the jobs counted in the slot", "statement": "After any sequence of job insertions in a slot, each counter for a (queue, project, type, user) key is the sum over the inserted non-container jobs matching the key of (resources, 1 job, resources*walltime); the order of insertion does not matter and combining slots takes max, max, sum. (Violated when the rules are loaded twice in a process: the list of counted job types is extended and the jobs are counted twice.)", "quantifier": "every sequence of jobs", "why_tests_cant": "Unbounded histories and permutation invariance.", "anchors": ["oar/kao/quotas.py: Quotas.update, Quotas.combine", "oar/kao/slot.py: SlotSet.sub_slot_during_job"]}
{"id": "C17", "title": "The most specific quota rule applies", "statement": "For each field of the key the rule with the job's own value is preferred to the '/' rule, itself preferred to the '*' rule; if no rule matches there is no limit. (Violated: the search does not backtrack, so that a matching rule may be missed when a more specific first field leads nowhere.)", "quantifier": "all rule tables and keys", "why_tests_cant": "Rule tables are arbitrary.", "anchors": ["oar/kao/quotas.py: Quotas.find_applicable_rule"]}
{"id": "C18", "title": "The periodic quota calendar designates the rule set in force", "statement": "At any time the calendar returns the rule set whose weekly period contains that time and the duration remaining until the end of this period; gaps are filled with the default rule set so that periods tile the week. (The code's lookup violates this.)", "quantifier": "all calendars and times", "why_tests_cant": "Continuum of times; requires tiling of the week.", "anchors": ["oar/kao/quotas.py: Calendar, Calendar.periodical_rules_at, Calendar.rules_at, Calendar.check_periodicals"]}
{"id": "C19", "title": "Accounting windows conserve consumption", "statement": "For any job run [start, stop) with nb resources and any window size, the consumptions recorded across accounting windows sum to (stop-start)*nb, each window receives at most its length times nb, and windows are aligned, disjoint and cover the run.", "quantifier": "all start/stop/window sizes/resource counts", "why_tests_cant": "Unbounded number of windows.", "anchors": ["oar/lib/accounting.py: update_accounting"]}
{"id": "C20", "title": "Every finished job is accounted exactly once", "statement": "Repeated accounting passes account the consumption of each job which reached a terminal state exactly once, and jobs still running during a pass are accounted when they end. (The code marks every job as accounted on each pass.)", "quantifier": "all histories of job ends and accounting passes", "why_tests_cant": "Histories.", "anchors": ["oar/lib/accounting.py: check_accounting_update"]}
{"id": "C21", "title": "Walltime change requests are authorised and bounded", "statement": "A walltime change is refused unless the feature is enabled, the job is running and belongs to the requesting user (or the user is root/oar); the effective increase never exceeds the configured maximum, and a reduction never goes below the time already elapsed. (The maximum is violated by several requests in a row: a new request forgets what was already granted.)", "quantifier": "all jobs, users, configurations and sequences of requests", "why_tests_cant": "Sequences of requests interact through the stored row.", "anchors": ["oar/lib/walltime.py: request, get, get_conf"]}
{"id": "C22", "title": "Walltime grants are conserved", "statement": "When pending walltime increases are processed, the job's walltime minus the total granted is invariant, what is granted never exceeds what was pending, pending + granted is preserved, and the job's new end never collides with the next job predicted on its resources (security time included). (Violated for a reduction processed after the job has exceeded its walltime: time is added.)", "quantifier": "all sequences of processing rounds", "why_tests_cant": "Unbounded rounds with arbitrary schedules in between.", "anchors": ["oar/kao/walltime_change.py: process_walltime_change_requests", "oar/lib/walltime.py: update_walltime_change_request, change_walltime", "oar/lib/job_handling.py: get_possible_job_end_time_in_interval"]}
{"id": "C23", "title": "Terminal job states are absorbing and the state log is a timeline", "statement": "Once a job is Terminated or Error, no set_job_state changes it. For every sequence of state changes the job's state log consists of consecutive intervals, at most one of them open, whose last value is the current state.", "quantifier": "all sequences of state changes of all jobs", "why_tests_cant": "Arbitrary histories.", "anchors": ["oar/lib/job_handling.py: set_job_state, log_job / JobStateLog"]}
{"id": "C24", "title": "Only the owner or an administrator can delete, hold or resume a job", "statement": "Deleting, holding, resuming or checkpointing a job leaves the database unchanged and returns an error code unless the caller owns the job or is root/oar; holding, resuming and checkpointing moreover need a job in an eligible state; a job already being deleted is not deleted twice. (The event recorded for a checkpoint is the one of a signal, and conversely.)", "quantifier": "all users, jobs, states, and call sequences", "why_tests_cant": "All combinations of caller/owner/state and call histories.", "anchors": ["oar/lib/job_handling.py: frag_job, hold_job, resume_job, ask_checkpoint_signal_job"]}
{"id": "C25", "title": "A deleted job is eventually escalated to extermination, never resurrected", "statement": "The deletion state of a job only moves forward LEON -> TIMER_ARMED -> (FRAGGED | LEON | LEON_EXTERMINATE); the timer fires only after the configured delays, extermination strictly after the soft delay, and a job whose end has been reached is marked FRAGGED.", "quantifier": "all histories of the deletion and the timer modules, all configured delays", "why_tests_cant": "Timed histories.", "anchors": ["oar/modules/leon.py: Leon.run", "oar/modules/sarko.py: Sarko.run"]}
{"id": "C26", "title": "Jobs are killed for walltime only once it is exhausted", "statement": "A running job is asked to be killed by the walltime watcher only when now exceeds its start time plus its walltime plus the time it spent suspended. (The code violates this for jobs that have been suspended.)", "quantifier": "all jobs, suspensions, dates", "why_tests_cant": "Depends on suspension histories.", "anchors": ["oar/modules/sarko.py: Sarko.run", "oar/lib/job_handling.py: get_job_suspended_sum_duration"]}
{"id": "C27", "title": "The launcher never runs two executors for one job and loses no command", "statement": "For every arrival order of commands and every completion order of executors, at most one live executor exists per job, every accepted command is executed exactly once or still queued, commands of one job are executed in the order of their arrival, no more than the configured number of executors are alive, and the launcher never waits without timeout while commands are queued. (The code admits one more executor, and may reverse two commands of a job when its executor ends between the two.)", "quantifier": "all interleavings of arrivals and completions", "why_tests_cant": "Concurrent interleavings.", "anchors": ["oar/modules/bipbip_commander.py: BipbipCommander.run"]}
{"id": "C28", "title": "The central automaton never forgets a request and throttles the scheduler", "statement": "In every history of the main automaton, the pending command queue has no duplicates, unknown commands are dropped, the scheduler is never started twice within the configured minimal interval, a scheduling request received during this interval stays pending until served, and it is served within a bounded number of commands once the interval has elapsed. (The last clause is violated under a stream of unknown commands, which keep the automaton away from its timeouts.)", "quantifier": "all histories of commands and clock readings", "why_tests_cant": "Unbounded histories.", "anchors": ["oar/modules/almighty.py: Almighty.add_command, Almighty.time_update, Almighty.qget, Almighty.run"]}
{"id": "C29", "title": "Durations and dates convert without loss", "statement": "duration -> h:m:s -> duration is the identity with 0 <= m,s < 60, for every non-negative duration, including the textual SQL form; parsing 'h', 'h:m' and 'h:m:s' yields 3600h+60m+s.", "quantifier": "all durations", "why_tests_cant": "All integers.", "anchors": ["oar/lib/tools.py: duration_to_hms, hms_to_duration, duration_to_sql, sql_to_duration, hms_str_to_duration, get_duration"]}
{"id": "C30", "title": "Internal and external resource numbering are inverse", "statement": "For every list of resources with distinct ids, the ordered (scheduler) numbering and the database ids are inverse bijections on the usable resources, the full set is exactly the ordered numbers of the usable resources, the blocks of each hierarchy level partition them by the value of the property, and no other resource shares a number with a usable one. (The last clause is violated: every unusable resource is confused with the first one; an identifier over 99999 makes the scheduler fail.)", "quantifier": "all resource tables and orders", "why_tests_cant": "Arbitrary tables.", "anchors": ["oar/lib/resource.py: ResourceSet.__init__"]}
{"id": "C31", "title": "Queues are scheduled by decreasing priority and all of their jobs are considered in order", "statement": "Queues are grouped by equal priority, groups come in strictly decreasing priority order, each active queue appears in exactly one group; job sorting (karma, multifactor, id) returns a permutation of the waiting jobs sorted by the policy, stable for equal keys, and the cap on the number of jobs keeps a prefix.", "quantifier": "all queue tables, job lists, priorities", "why_tests_cant": "Permutation / sorting properties over lists.", "anchors": ["oar/lib/queue.py: get_queues_groupby_priority", "oar/kao/kamelot.py: schedule_cycle, jobs_sorting", "oar/kao/karma.py: karma_job_sorting", "oar/kao/multifactor_priority.py: multifactor_jobs_sorting"]}
{"id": "C32", "title": "A job is launched only when due and on healthy resources", "statement": "In a meta-scheduling round only jobs whose predicted start is not in the future and whose resources are all alive are launched; if a best-effort job occupies a needed resource it is asked to be killed and the job is not launched in this round.", "quantifier": "all gantt tables, resource states and dates", "why_tests_cant": "All table contents.", "anchors": ["oar/kao/meta_sched.py: handle_jobs_to_launch, check_besteffort_jobs_to_kill, check_jobs_to_launch / meta_schedule", "oar/lib/job_handling.py: get_gantt_jobs_to_launch"]}
{"id": "C33", "title": "A late advance reservation keeps its end date", "statement": "When an advance reservation is launched late its walltime is reduced by the delay, so start + walltime is preserved (down to an expired reservation being put in error).", "quantifier": "all dates", "why_tests_cant": "All integers.", "anchors": ["oar/kao/meta_sched.py: handle_jobs_to_launch, handle_waiting_reservation_jobs"]}
{"id": "C34", "title": "A job is automatically resubmitted at most once and only when idempotent", "statement": "The treatment of an event creates no job but a new copy of the job of the event, only if that job is passive and not an advance reservation, and only if the event is a failure of the infrastructure while launching it, or the job is idempotent, exited with code 99, was not killed on request, ran for more than 60 seconds and was not already resubmitted; in the latter case it is indeed resubmitted. A best-effort idempotent job killed for another one is resubmitted when it ends. The automatic treatment never resubmits a job twice, and jobs depending on it then depend on the new one.", "quantifier": "all event histories", "why_tests_cant": "Event histories are arbitrary.", "anchors": ["oar/modules/node_change_state.py: NodeChangeState.run", "oar/lib/job_handling.py: resubmit_job, is_job_already_resubmitted"]}
{"id": "C35", "title": "Error events suspect the right resources", "statement": "Every node/job error event handled leads to the documented job state and suspects only the resources of the job concerned; hold/suspend requests suspend the job only if it is in the right state. (The code swaps the two hold variants.)", "quantifier": "all events and job states", "why_tests_cant": "Finite table of types but any order and history.", "anchors": ["oar/modules/node_change_state.py: NodeChangeState.run"]}
{"id": "C36", "title": "Flushing the predictive schedule keeps accepted reservations", "statement": "When predictions are flushed before a new scheduling round, exactly the predictions of scheduled/resuming advance reservations kept in the given list survive; removing unavailable resources from a reservation deletes these resources and no other. (The latter is inverted in the code.)", "quantifier": "all gantt tables", "why_tests_cant": "All table contents.", "anchors": ["oar/lib/job_handling.py: gantt_flush_tables, remove_gantt_resource_job"]}
{"id": "C37", "title": "Energy saving never shuts down a node that is needed", "statement": "A node is asked to halt only if it is idle for longer than the idle delay and has no job predicted within the sleep delay; a halt never brings the number of idle nodes of a property class below the configured keep-alive; wake-up timeouts depend monotonically on the thresholds table.", "quantifier": "all sets of nodes, dates and configurations", "why_tests_cant": "All configurations and histories.", "anchors": ["oar/kao/meta_sched.py: nodes_energy_saving", "oar/lib/node.py: search_idle_nodes, get_gantt_hostname_to_wake_up", "oar/modules/greta.py: Greta.run, get_timeout, fill_timeouts"]}
{"id": "C38", "title": "Users cannot bypass quotas at submission", "statement": "With quotas on, whatever types a user passes at submission, unless an admission rule or the admin queue adds it the job is not marked as exempt from quotas. (Violated: only the first literal 'no_quotas' is removed and 'no_quotas=x' is not recognised.)", "quantifier": "all lists of user-supplied types", "why_tests_cant": "Adversarial input.", "anchors": ["oar/lib/submission.py: add_micheline_jobs", "oar/lib/job_handling.py: get_jobs_types"]}
{"id": "C39", "title": "Array submissions create exactly the requested sub-jobs", "statement": "An array submission of n sub-jobs (count or parameter file) creates n jobs with array indices 1..n, in order, sharing the array id which is the first job's id; each sub-job's command is the base command followed by its parameter line; each gets its own moldable description, groups and resource descriptions identical to the request.", "quantifier": "all n, parameter files and requests", "why_tests_cant": "Unbounded n.", "anchors": ["oar/lib/submission.py: add_micheline_jobs, add_micheline_simple_array_job, JobParameters.read_array_param_file"]}
{"id": "C40", "title": "The resource request parser agrees with its grammar", "statement": "Rendering any structured resource request in the oarsub syntax and parsing it gives the structure back (properties, levels, counts, ALL/BEST/HALF_BEST, walltime), and a request using two special counts in a group is rejected.", "quantifier": "all structured requests over separator-free names", "why_tests_cant": "Round trip over an infinite grammar.", "anchors": ["oar/lib/submission.py: parse_resource_descriptions"]}
{"id": "C41", "title": "Suspension time is computed exactly", "statement": "The suspended duration reported for a job at a date is the sum of the lengths of its suspension intervals in the state log, an open one being counted up to the given date.", "quantifier": "all state logs and dates", "why_tests_cant": "Unbounded logs.", "anchors": ["oar/lib/job_handling.py: get_job_suspended_sum_duration"]}
{"id": "C42", "title": "Timesharing compatibility between two jobs is symmetric and exact", "statement": "Two jobs can share resources exactly when both are timesharing and their user and name restrictions match; swapping the two jobs gives the same answer. (Violated by a typo.)", "quantifier": "all pairs of jobs", "why_tests_cant": "Relational property.", "anchors": ["oar/lib/job_handling.py: is_timesharing_for_two_jobs"]}
{"id": "C43", "title": "Suspended jobs do not block their suspendable resources", "statement": "When the current schedule is read, for every suspended job the suspendable resources are removed from its reserved set, and other jobs keep all of theirs. (Violated: only the last job of the list is treated.)", "quantifier": "all schedules", "why_tests_cant": "Position-dependent bug needs lists of several jobs.", "anchors": ["oar/lib/job_handling.py: extract_scheduled_jobs"]}
{"id": "C44", "title": "API tokens revoked by the administrator are refused", "statement": "A request with a token is accepted exactly when the token decodes, names a user, and was issued no earlier than both the global revocation date and this user's revocation date.", "quantifier": "all tokens and revocation tables", "why_tests_cant": "All table contents.", "anchors": ["oar/api/auth.py: need_authentication"]}
{"id": "C45", "title": "API pagination enumerates every item exactly once", "statement": "Requesting consecutive pages of size limit>0 from offset 0 yields the concatenation of all items without gap or repetition, each page having at most limit items, and an offset past the end is refused.", "quantifier": "all lists and page sizes", "why_tests_cant": "Unbounded lists.", "anchors": ["oar/api/url_utils.py: list_paginate", "oar/api/query.py: PaginationQuery"]}
{"id": "C46", "title": "Values handed to the remote executor are serialised faithfully", "statement": "The Perl-hash serialisation of a dictionary is a well-formed literal whose quoted strings decode to the original values. (Violated for strings with a backslash before a quote or at the end, whose tail is read as Perl code, and for an empty dictionary.)", "quantifier": "all dictionaries", "why_tests_cant": "Adversarial strings.", "anchors": ["oar/lib/tools.py: limited_dict2hash_perl"]}
{"id": "C47", "title": "Inserting and releasing a job are inverse", "statement": "Adding a job's resources to the timeline (container opening) over a window makes exactly these resources available in this window and leaves all other times unchanged; subtracting a job from a timeline where its resources are free and then adding it back over the same window restores availability at every time.", "quantifier": "all timelines, jobs and times", "why_tests_cant": "Universal over timelines.", "anchors": ["oar/kao/slot.py: SlotSet.split_slots(sub=False), SlotSet.add_slot_during_job, SlotSet.split_slots_jobs"]}
{"id": "C48", "title": "A resource that becomes suspected only changes if it was usable", "statement": "A node is turned into Suspected only if it is currently Alive (or suspected by the automatic checker): an Absent or Dead node is never turned into Suspected. (Violated: the guard tests a state name that never occurs.)", "quantifier": "all resource states", "why_tests_cant": "All states and tags.", "anchors": ["oar/lib/node.py: set_node_state", "oar/modules/node_change_state.py"]}
{"id": "C49", "title": "One unplaceable job never prevents the others from being scheduled", "statement": "In a scheduling pass a job that cannot be placed (too large a container, an inner job whose container does not exist, an unsatisfied dependency) is left unscheduled and the pass goes on with the other jobs. (Violated: an unplaceable container and a missing container both raise and abort the pass.)", "quantifier": "all lists of waiting jobs", "why_tests_cant": "Needs every combination of failing job and position in the list.", "anchors": ["oar/kao/scheduling.py: schedule_id_jobs_ct"]}
{"id": "C50", "title": "Accepted walltime change requests are processed", "statement": "When the walltime change feature is configured so that requests are accepted, the metascheduler processes the pending requests. (Violated: requests are accepted only when the option is 'YES' and processed only when it is 'yes'.)", "quantifier": "every value of the configuration option, every request", "why_tests_cant": "Two modules read the same option; each one's tests set the value it expects.", "anchors": ["oar/lib/walltime.py: request", "oar/kao/meta_sched.py: meta_schedule"]}
{"id": "C51", "title": "Only resources that stopped answering are declared dead", "statement": "The periodic watcher turns into Dead only resources that are Absent or Suspected and have been so for longer than the configured delay. (Violated: the state is not tested.)", "quantifier": "all resource tables, state logs and delays", "why_tests_cant": "Needs every state and every log.", "anchors": ["oar/lib/resource_handling.py: get_absent_suspected_resources_for_a_timeout", "oar/modules/sarko.py"]}
{"id": "C52", "title": "The state log of a resource is a timeline", "statement": "For every sequence of changes of a resource's state, its state log consists of consecutive intervals, only the last of them open, whose last value is the current state; the same holds of each property ever written. (Violated for a resource created through the REST API, which gets no interval, for a node state change on SQLite, which leaves the previous interval open, and for two maintenance orders in a row.)", "quantifier": "all sequences of resource creations, state changes, property changes, event treatments and removals", "why_tests_cant": "All histories.", "anchors": ["oar/lib/resource_handling.py: set_resource_state", "oar/lib/node.py: set_node_state"]}
{"id": "C53", "title": "Jobs on a resource going down are deleted, and no other", "statement": "When requested states are applied, each resource with a requested state takes it and loses its request, every other resource is untouched, and the jobs asked to be deleted are exactly the unfinished jobs, other than cosystem and noop ones, that currently use a resource that becomes Dead or Absent.", "quantifier": "all resource tables reachable by any history, all job tables, assignments and requested states", "why_tests_cant": "All assignments of jobs to resources, all combinations of requested states.", "anchors": ["oar/modules/node_change_state.py: NodeChangeState.run", "oar/lib/resource_handling.py: get_resource_job_to_frag, set_resource_state, set_resource_nextState"]}
{"id": "C54", "title": "One event never blocks the treatment of the others", "statement": "In a run of the event module, every event to check is treated, whatever the other events are. (Violated: an event of a job without node, or of a deleted job, raises an exception before being marked.)", "quantifier": "all lists of events, all jobs", "why_tests_cant": "Needs every combination of failing event and position in the list.", "anchors": ["oar/modules/node_change_state.py: NodeChangeState.run", "oar/lib/event.py: get_to_check_events, check_event"]}
{"id": "C55", "title": "The node checker only suspects nodes that do not answer and only revives those it suspected", "statement": "A run of the node checker requests a state only for resources of checked nodes (some default resource Alive or suspected by the checker, without requested state, and free of jobs unless configured otherwise): Suspected for a node that was Alive and does not answer, Alive for a node it had suspected and that answers; a resource that is Dead or Absent is never revived. (The last clause is violated: the request is made for the whole node, so a Dead resource comes back Alive with the other resources of its node.)", "quantifier": "all resource tables, assignments and sets of nodes that answer", "why_tests_cant": "All mixes of states inside a node.", "anchors": ["oar/modules/finaud.py: Finaud.run", "oar/lib/node.py: get_finaud_nodes, set_node_nextState, update_node_nextFinaudDecision, get_current_assigned_nodes"]}
{"id": "C56", "title": "Removing a resource needs an administrator and a Dead resource, and removes the jobs that used it", "statement": "Removing a resource changes nothing and returns an error code unless the caller is oar or root and the resource is Dead; otherwise the resource and its log disappear, as do the jobs that used it with their events, deletion requests and assignments, and nothing else.", "quantifier": "all tables, resources and users", "why_tests_cant": "All combinations of assignments.", "anchors": ["oar/lib/resource_handling.py: remove_resource"]}
{"id": "C57", "title": "The resources of a job given by the API are those of this job", "statement": "GET /jobs/{id}/resources lists exactly the resources assigned to the job asked for. (Violated: the filter on the job is commented out, the resources of all the jobs are listed.)", "quantifier": "all databases and jobs", "why_tests_cant": "All contents of the assignment tables.", "anchors": ["oar/lib/basequery.py: BaseQueryCollection.get_assigned_one_job_resources", "oar/api/routers/job.py: resources"]}
{"id": "C58", "title": "The list of jobs follows its filters and misses no live job", "statement": "Every job listed by oarstat or GET /jobs satisfies the filters on the user, the states, the array and the identifiers, and is listed once; without dates every job not ended that satisfies them is listed; with a window of dates, the ended jobs listed are those whose execution overlaps it; a job asked for by its identifier is found. (Violated: jobs in toError are not in the default list, a job ended before starting is never found, a running job may be missed when states and dates are given.)", "quantifier": "all databases and filters", "why_tests_cant": "All combinations of tables and filters.", "anchors": ["oar/lib/basequery.py: BaseQuery.filter_jobs_for_user, BaseQueryCollection.get_jobs_for_user"]}
{"id": "C59", "title": "A job may only use resources that satisfy its properties", "statement": "The set of resources a job may use is exactly the usable resources that satisfy both the properties of the job (with those imposed by the administrator) and the condition of the group of the request. (Violated: an unusable resource that satisfies them stands for the first resource of the platform, which may not; and the two conditions are joined without parentheses, so an OR in the condition of the group bypasses the properties imposed by the administrator.)", "quantifier": "all resource tables and conditions", "why_tests_cant": "All formulas and resource states.", "anchors": ["oar/lib/job_handling.py: get_data_jobs", "oar/lib/submission.py: estimate_job_nb_resources", "oar/lib/resource.py: ResourceSet.__init__"]}
{"id": "C60", "title": "The priority policies favour small consumers and old jobs", "statement": "With the fair-sharing policy, of two waiting jobs of the same project the one whose user consumed less over the window is considered first, targets of projects and users lower the karma, and the sort never fails; with the multifactor policy, all else being equal an older job or a job with a smaller karma is considered first. (Violated: a target for a user of a waiting job makes the sort raise; a karma below -1 is put last by the multifactor policy; the age does not count for the first days.)", "quantifier": "all accounting tables, settings and jobs", "why_tests_cant": "All combinations of weights and consumptions.", "anchors": ["oar/kao/karma.py: evaluate_jobs_karma, karma_jobs_sorting", "oar/kao/multifactor_priority.py: evaluate_jobs_priority, multifactor_jobs_sorting"]}
{"id": "C61", "title": "The fair-sharing targets are read as they are written", "statement": "Any set of targets written as { name => value, ... } in the configuration is read back as this mapping. (Violated for the empty set, which raises.)", "quantifier": "all sets of targets over separator-free names and values", "why_tests_cant": "Round trip over an infinite language.", "anchors": ["oar/kao/karma.py: perl_hash_2_dict"]}
{"id": "C62", "title": "The types of the jobs are always readable", "statement": "Whatever types users give to their jobs, a scheduling round can read them, and the last value given to a type is the one which applies (placeholder and allow replacing each other). (Violated: a type timesharing, placeholder or allow without its value makes the reading of the types of all the jobs raise.)", "quantifier": "all lists of types", "why_tests_cant": "All texts users may pass.", "anchors": ["oar/lib/job_handling.py: get_jobs_types"]}
{"id": "C63", "title": "The schedule recorded is the one decided", "statement": "After a scheduler recorded its decisions, the predictions are the former ones and exactly those of the jobs that were given a start date, and the resources recorded for each of them, read back, are the ones decided.", "quantifier": "all decisions, tables and numberings of resources", "why_tests_cant": "All tables and schedules.", "anchors": ["oar/lib/job_handling.py: save_assigns, extract_scheduled_jobs", "oar/lib/resource.py: ResourceSet.__init__"]}
{"id": "C64", "title": "The request scheduled is the one submitted", "statement": "For every accepted submission, whatever the other jobs in the tables, a scheduler that reads the waiting jobs gets for each new job exactly the alternatives asked, in order, each with its walltime (or the default one) plus the security time, its groups with their levels and counts in order and the properties of the job and of the group. (The last group of the last alternative may be duplicated, which is proved to have no effect on the resources found; and when the moldable descriptions of two concurrent submissions are interleaved a job loses alternatives.)", "quantifier": "all tables, submissions and sets of jobs read", "why_tests_cant": "The reading is a single loop over the rows of all the jobs, with state carried from one to the next.", "anchors": ["oar/lib/job_handling.py: get_data_jobs", "oar/lib/submission.py: add_micheline_jobs"]}
{"id": "C65", "title": "A request is accepted exactly when it can run on the idle platform", "statement": "A submission is rejected for lack of resources only if no alternative could ever be placed on the idle platform, and an accepted one has an alternative that can. (Violated: one satisfiable group of one alternative is enough to be accepted, and a request without condition is estimated on resources of all types.)", "quantifier": "all platforms, hierarchies and requests", "why_tests_cant": "All requests over all hierarchies.", "anchors": ["oar/lib/submission.py: estimate_job_nb_resources", "oar/kao/scheduling.py: find_resource_hierarchies_job"]}
{"id": "C66", "title": "Resubmission recreates the job", "statement": "Resubmitting a job succeeds exactly when it is a passive job which is over, asked by its owner or an administrator, and no active job of another user has its keys; it then creates one waiting job which refers to it, with the same command, queue, properties, owner, keys, types and request, read by the schedulers as that of the old job, and which starts afresh; the jobs that depended on the old job depend on the new one, and nothing changes for the other jobs; otherwise nothing changes at all. (The new job does not start afresh: it keeps the dates, the suspension, the place in an array and the mark of accounting, so that it is never accounted, loses the dependencies of the old one, and batch reservations are resubmitted too.)", "quantifier": "all states of the tables, jobs and users", "why_tests_cant": "The copy reads the tables it extends, for all requests and all other jobs.", "anchors": ["oar/lib/job_handling.py: resubmit_job, get_count_same_ssh_keys_current_jobs", "oar/cli/oarsub.py: cli"]}
{"id": "C67", "title": "Energy saving commands: one at a time, each answered, none lost", "statement": "The energy saving module launches at most one command for a node at a time; a node is halted only if that was asked, and woken up only if that was asked or a keep-alive class lacks idle nodes; every requested node is launched, refused because of the keep-alive, already being processed, remembered for later or suspected; a remembered command is executed once; a node whose halt ends or fails can be woken up again, including after a restart of the module; no sequence of messages, exit codes and restarts makes the module raise.", "quantifier": "all histories of messages, database contents, executor exit codes and restarts", "why_tests_cant": "Needs every interleaving of messages, executors and restarts.", "anchors": ["oar/modules/greta.py: Greta.run, WindowForker.check_executors, fill_timeouts, get_timeout"]}
{"id": "C68", "title": "Launching a job starts it at most once, only when it is to be launched, and only after its nodes were checked", "statement": "The module that launches a job contacts nodes only if it found the job in state toLaunch; it starts the job's process at most once per run, whatever the rest of the system does meanwhile; and a job that is neither a reservation nor of type deploy or cosystem is started on its first node, only after the cpusets were created on all the nodes where they are needed (unless the creation command itself could not be run) and after all the nodes answered. A run on a job in any other state, without the end of an execution to treat, changes nothing.", "quantifier": "all databases, all arguments, all results of the remote commands, all interleavings of other modifications of the database", "why_tests_cant": "the remote commands fail in combinations (tags, partial lists of bad nodes, reservations or not, types) that tests mock one at a time; the interleavings with the event treatment cannot be enumerated", "anchors": ["oar/modules/bipbip.py: BipBip.run, call_server_prologue", "oar/lib/tools.py: pingchecker"]}
{"id": "C69", "title": "A launch that fails is reported and the job ends", "statement": "If the launch of a job does not lead to the state Running and no exception stops it, then an event naming the nodes at fault (or the failed start) is registered to be checked, the exit code tells the failure, the process of the job was not left running, and after the events are treated the job is Terminated or in Error; the launch itself continues the job's history (all the history properties hold after it). A failed server prologue is always reported.", "quantifier": "all histories of the database, all results of the remote commands, all other pending events", "why_tests_cant": "needs the composition of the launch, the events it registers and their later treatment, over every history and every set of other pending events", "anchors": ["oar/modules/bipbip.py: BipBip.run", "oar/lib/job_handling.py: check_end_of_job, job_finishing_sequence", "oar/modules/node_change_state.py: NodeChangeState.run", "oar/lib/event.py: add_new_event_with_host"]}
{"id": "C70", "title": "The end of an execution is accepted only with the job's challenge, and is then recorded", "statement": "A message announcing the end of an execution changes nothing but one event when its challenge is not that of the job; with the right challenge a job under execution is put in state Finishing with its stop date and the exit value of its script, the events of this end are registered to be checked, other jobs are not changed; the end raises exactly when no host can be named or the server epilogue fails.", "quantifier": "all databases, all exit values, all challenges, all outcomes of the epilogue, of the cleaning and of the pings", "why_tests_cant": "the exit values select among 30 branches, combined with job types, hosts and the outcomes of the finishing sequence", "anchors": ["oar/modules/bipbip.py: BipBip.run", "oar/lib/job_handling.py: check_end_of_job, job_finishing_sequence, get_job_challenge"]}
{"id": "C71", "title": "The default admission rules accept exactly the allowed submissions and complete them as documented", "statement": "With the admission rules installed by default, a submission is accepted if and only if: the user is neither root nor oar; the queue admin is used by a member of the group admin; no level is a system property; a best-effort job is not a reservation; a deployment does not ask for less than nodes; a reservation of a user without privilege comes when he has fewer than two of them waiting; all the types are known. An accepted best-effort job has both the type and the queue besteffort; every alternative has a walltime (two hours by default), of at most twelve hours for interactive jobs; nothing else is changed.", "quantifier": "all users, parameters, requests, types, group memberships, contents of the table of the jobs and of the file of privileges", "why_tests_cant": "the rules are programs run one after the other on a shared dictionary; their combination (types, queues, reservation, number of alternatives) cannot be enumerated", "anchors": ["etc/oar/admission_rules.d/: rules 01 to 15", "oar/lib/submission.py: apply_admission_rules"]}
{"id": "C72", "title": "A job only gets resources that satisfy all the conditions that apply to it", "statement": "For every accepted submission, the resources among which the scheduler chooses for a group are those that satisfy the properties given by the user, the properties of the group and the conditions of the rules: not in drain mode; open to best-effort jobs for a best-effort job; open to deployments for a deployment.", "quantifier": "all texts of properties, all resources (values of the elementary conditions), single jobs and arrays with or without keys, all groups", "why_tests_cant": "the conditions are texts nested by several functions and interpreted by the database; tests execute a few of them", "anchors": ["etc/oar/admission_rules.d/: rules 03, 06, 08", "oar/lib/submission.py: add_micheline_subjob, add_micheline_simple_array_job", "oar/lib/job_handling.py: get_data_jobs"]}
{"id": "C73", "title": "A user has at most two waiting reservations", "statement": "In every history of submissions, validations by the meta scheduler and changes of state, a user who is not in the file of privileges never has more than two waiting reservations.", "quantifier": "all histories, users, files of privileges", "why_tests_cant": "it is an invariant of the histories of several modules", "anchors": ["etc/oar/admission_rules.d/11_advance_reservation_limitation.py"]}
{"id": "C74", "title": "The FIFO scheduler serves jobs in order and gives each what it asks for", "statement": "The FIFO scheduler serves the waiting jobs in the order of their identifiers: the jobs served are the first ones; each of them gets exactly the number of resources it asks for, among the resources that satisfy its constraints, that are not used by running jobs or jobs being launched and that no earlier job took; no resource is given to two jobs; it stops at the first job whose request cannot be satisfied by what is left, so that nobody overtakes it.", "quantifier": "all sets of resources, hierarchies, planned jobs and lists of waiting jobs", "why_tests_cant": "the loop consumes a shared set of resources; overtaking or sharing shows only for particular combinations of requests", "anchors": ["oar/kao/kamelot_fifo.py: schedule_fifo_cycle", "oar/kao/scheduling_basic.py: find_resource_hierarchies_job"]}
{"id": "C75", "title": "The basic scheduler places each job as early as possible without double allocation", "statement": "A round of the basic scheduler treats the waiting jobs in order. Each job gets, for the alternative that ends first, the earliest window in which its request can be satisfied by the resources free during the whole window, after the jobs placed before it; two jobs never hold a common resource at the same date; a job that fits at no date is left alone, dependencies and containers are respected.", "quantifier": "all well-formed timelines, hierarchies and lists of waiting jobs", "why_tests_cant": "depends on the shape of the timeline left by all the previous jobs and on every combination of requests", "anchors": ["oar/kao/scheduling_basic.py: find_first_suitable_contiguous_slots, assign_resources_mld_job_split_slots, schedule_id_jobs_ct", "oar/kao/kamelot_basic.py: schedule_cycle"]}
{"id": "C76", "title": "The repair program reboots a broken node once softly, then once the hard way after the delay", "statement": "Each run of oar_phoenix sends a soft reboot to broken nodes it does not know yet and a hard reboot to nodes whose soft reboot is older than the configured delay, in the order of the broken nodes and within the configured maximum; a node that stays broken is rebooted at most once each way; a hard reboot always follows a soft one since which the node has stayed broken; the number of simultaneous reboots is bounded, an interrupted run repeats nothing, a node still broken after both is reported.", "quantifier": "all histories of runs, sets of broken nodes, dates and configurations, runs interrupted before their end", "why_tests_cant": "depends on the sequence of runs and on the state kept between them", "anchors": ["oar/tools/oar_phoenix.py: clean_status, get_nodes_to_soft_reboot, get_nodes_to_hard_reboot, soft_reboot_nodes, hard_reboot_nodes, main", "oar/lib/node.py: get_nodes_with_given_sql"]}
{"id": "C77", "title": "The test of the nodes reports exactly the nodes that do not answer", "statement": "For each configured method, the test of a set of nodes reports exactly those the command does not declare alive (or declares dead), and says when the command did not end in time; a run of the node checker therefore suspects exactly the Alive nodes that do not answer and revives exactly those it suspected that answer.", "quantifier": "all configurations, sets of hosts, outputs of the commands and states of the resources", "why_tests_cant": "the output of the external command is arbitrary text; every method must be right on all of them", "anchors": ["oar/lib/tools.py: pingchecker, pingchecker_exec_command", "oar/modules/finaud.py: Finaud.run"]}
{"id": "C78", "title": "oardel, oarhold and oarresume act on every selected job and report what happened", "statement": "Each command treats every job selected by identifiers, array or clause; a job it may not act on is reported and does not keep the others from being treated; the exit status is 0 exactly when every job was treated, and the server is told whenever something changed.", "quantifier": "all databases, users, selections, configurations and answers of the server and of the nodes", "why_tests_cant": "the outcome depends on the order and the mix of the jobs, users and answers; tests use one or two jobs", "anchors": ["oar/cli/oardel.py: oardel", "oar/cli/oarhold.py: oarhold", "oar/cli/oarresume.py: oarresume", "oar/cli/utils.py: CommandReturns", "oar/api/routers/job.py: hold"]}
{"id": "C79", "title": "The scheduling priorities of the resources follow the best-effort and timesharing jobs", "statement": "At any time the priority of a resource is its configured value plus the contributions of the best-effort and timesharing jobs that have been launched and have not ended, on the levels of the configured hierarchy; when these jobs have ended every priority is back to its value, whatever the order of the launches, ends and changes of type.", "quantifier": "all configurations, properties, assignments and histories of launches, ends and changes of the type", "why_tests_cant": "a drift appears only after particular histories and accumulates silently", "anchors": ["oar/lib/resource_handling.py: update_current_scheduler_priority", "oar/lib/job_handling.py: set_job_state, remove_current_job_types", "oar/cli/oardel.py: oardel (--besteffort)"]}
{"id": "C80", "title": "A notification received on the socket of the server has exactly its effect", "statement": "Each message of oarexec, of the scheduler or of Leon received on the socket ends as exactly one run of bipbip or Leon, for the job of the message and with its fields; any other message reaches the central automaton unchanged; what is received never makes the server run anything else, nor stops it.", "quantifier": "all messages, all ways the transport cuts or groups them, all fields", "why_tests_cant": "the transport may cut and group messages anywhere and the fields are arbitrary text sent by any host", "anchors": ["oar/modules/appendice_proxy.py: AppendiceProxy.run", "oar/modules/bipbip_commander.py: bipbip_leon_executor, launch_command", "oar/modules/bipbip.py: BipBip.__init__", "oar/tools/oarexec: quit_oarexec"]}
{"id": "C81", "title": "The configuration read is the one written", "statement": "Every parameter written in the configuration file has the value written, the last one when there are several; comments have no effect, parameters that are not written keep their default value, and default values never replace a written one.", "quantifier": "all configuration files, names and values", "why_tests_cant": "the values are arbitrary text (commands, SQL conditions, passwords); a few examples do not show which texts are altered", "anchors": ["oar/lib/configuration.py: Configuration.load_file, setdefault_config, __init__", "oar/lib/utils.py: try_convert_decimal"]}
{"id": "C82", "title": "oarnodesetting changes exactly what is asked", "statement": "The command writes the state, the properties and the maintenance mode asked on the selected resources only, keeps the fields of the system, gives back after a maintenance the availability the resources had, waits for the jobs of the resources taken out, and tells by its exit status what it could not do.", "quantifier": "all tables of resources and jobs, selections (identifiers, hosts, file), properties, states, and points where the command is stopped", "why_tests_cant": "the effect depends on the order of the options, on the previous values of each resource and on the jobs that hold them", "anchors": ["oar/cli/oarnodesetting.py: oarnodesetting, set_maintenance, set_resources_properties, wait_end_of_running_jobs", "oar/lib/resource_handling.py: set_resources_property, set_resources_nextState, log_resource_maintenance_event, add_resource", "oar/lib/node.py: set_node_nextState, get_node_job_to_frag"]}
{"id": "C83", "title": "oarqueue does each operation asked, on the queue named only", "statement": "The command lets only the administrators read and change the queues; each operation (enable, disable, add, change, remove) changes the queue named, in the fields of the operation, and nothing else; the scheduler follows at its next round; an operation that cannot be done is told by the exit status and changes nothing; several operations of one command are all done.", "quantifier": "all tables of queues, environments, options and histories of commands", "why_tests_cant": "the meaning of a history depends on every previous command and on the options given together", "anchors": ["oar/cli/oarqueue.py: oarqueue, cli", "oar/lib/queue.py: start_queue, stop_queue, start_all_queues, stop_all_queues, create_queue, change_queue, remove_queue, get_all_queue_by_priority"]}
{"id": "C84", "title": "oarproperty changes the properties asked and nothing else", "statement": "The deletions, additions and renamings asked are done: the other properties, and those of the system, keep their columns, types and values; the logs and the requests of the jobs follow the renamings; a command that fails changes nothing; what could not be done is told by the exit status.", "quantifier": "all tables of resources, logs and requests, all arguments and stopping points of the command", "why_tests_cant": "the result depends on the columns of the site and on the operations asked together", "anchors": ["oar/cli/oarproperty.py: oarproperty, check_property_name", "oar/lib/tools.py: check_resource_property"]}
{"id": "C85", "title": "The directives of a script are applied, after the options of the command line", "statement": "oarsub -S reads the lines '#OAR option value' of the script: each option of the manual gives its parameter the value written, in the order of the script, an option of the command line taking precedence; a line that is no option is refused and nothing is submitted; the jobs created are those of the array asked.", "quantifier": "all scripts, files, command lines, values and blanks", "why_tests_cant": "the options, their order and the blanks combine without bound, and the regular expressions are tried in an order that hides conflicts", "anchors": ["oar/lib/submission.py: scan_script, JobParameters.__init__, read_array_param_file", "oar/cli/oarsub.py: cli"]}
{"id": "C86", "title": "The files of a submission are accessed with the rights of its user, and the jobs get the keys asked", "statement": "Whatever the environment of the caller, oarsub reads and writes the files named by a submission (script, parameters, keys) with the rights of the user who submits; with -k each job gets the private key given, read or generated, and its public key in one line; the options about keys are refused without -k; the key exported is the private key of the job.", "quantifier": "all environments, files, rights, numbers of jobs, options and results of ssh-keygen", "why_tests_cant": "the rights depend on the environment inherited and on the order of the accesses; the unit tests replace oardodo", "anchors": ["oar/lib/submission.py: job_key_management, add_micheline_jobs, scan_script, JobParameters.read_array_param_file", "oar/cli/oarsub.py: cli", "oar/tools/oardodo.c.in: main", "oar/tools/oardo"]}
{"id": "C87", "title": "The notifications asked for a job are sent for the states asked and never disturb the system", "statement": "A notification with the documented syntax ([tags]mail:address or [tags]exec:command) is accepted and sends the mail or the command for exactly the states asked (all of them without tags); a command has only the allowed characters; an undocumented tag is refused; a mail server or a user command that fails has no effect on the treatment of the jobs.", "quantifier": "all texts of the option, states, jobs, events, failures of the mail server or of the command, and sequences of runs", "why_tests_cant": "the texts are unbounded; the functions are excluded from the coverage of the tests (pragma: no cover) and replaced by mocks", "anchors": ["oar/lib/tools.py: notify_user, send_mail", "oar/lib/submission.py: JobParameters.check_parameters, add_micheline_jobs", "oar/lib/job_handling.py: set_job_state", "oar/modules/node_change_state.py: NodeChangeState.run"]}
{"id": "C88", "title": "A job submitted with the API is the one described by the request, as with oarsub", "statement": "A POST on /jobs creates the jobs that the request describes: each documented key (command, resource, queue, property, types, array, param_file, reservation, workdir, resubmit, keys, notify...) has the effect of the option of oarsub; a request that cannot be honoured is refused; the answer gives the first job created.", "quantifier": "all requests, users, home directories, contents of parameters and results of the submission", "why_tests_cant": "a request has twenty four independent keys and unbounded texts; the unit test posts one request with two of them", "anchors": ["oar/api/routers/job.py: SumbitParameters, submit", "oar/lib/submission.py: JobParameters.__init__, check_parameters, add_micheline_jobs", "oar/cli/oarsub.py: cli"]}
{"id": "C89", "title": "The web proxy leads to a job only on the demand of its owner, only while the job lasts, and loses no rule", "statement": "A GET on /proxy/<job> by the owner of the job (or oar, root), who can read the address written by the job, makes the paths of that job lead to that address and leaves the other jobs alone; any other user is refused and nothing changes; the paths of a job lead only to that job; simultaneous requests and crashes lose no rule and never leave a partial file; the rules of ended jobs are removed and stay removed.", "quantifier": "all users, jobs, bases of the paths, addresses, files of rules made by any sequence of requests and cleanings, interleavings of requests and crash points", "why_tests_cant": "the rules of all jobs share one file updated by several threads and processes; the tests make one request on a mocked file", "anchors": ["oar/api/routers/proxy.py: proxy", "oar/api/proxy_utils.py: add_traefik_rule, del_traefik_rule, acquire_lock, release_lock, atomic_writing", "oar/cli/oarproxycleaner.py: cli"]}
{"id": "C90", "title": "The file access of the API acts on the file that is named, as the authenticated user", "statement": "A GET, POST, chmod, DELETE or ls of the API acts exactly on the file or directory named in the request (~ being the home directory), with the rights of the authenticated user and no other; the answer gives its content (or its last lines), its mode, its listing; a refused request changes nothing.", "quantifier": "all users, names of files, contents, modes, numbers of lines, offsets and file systems", "why_tests_cant": "names are unbounded texts and the effects depend on the whole file system; the tests mock every command", "anchors": ["oar/api/routers/media.py: user_and_filename_setup, ls, get_file, chmod, post_file, delete", "oar/api/url_utils.py: list_paginate"]}
{"id": "C91", "title": "What the API acknowledges about resources is recorded, and no request prevents the others", "statement": "When a resource request of the API (creation, change of state, deletion, show) answers with success, its effect is recorded in the database that the other programs read and is reported in the log; a request that fails or is refused changes nothing; and no request, whatever its arguments and whoever sends it, makes later requests of other users or other programs wait or fail.", "quantifier": "all databases, users, resource identifiers, states, columns, page limits and sequences of requests and of accesses of other programs", "why_tests_cant": "the effect depends on the history of all requests of the process, which share a session; tests share the session with the handler and so read uncommitted work", "anchors": ["oar/api/routers/resource.py: show, create, state, delete", "oar/api/app.py: db_session_middleware", "oar/api/query.py: paginate", "oar/lib/resource_handling.py: set_resource_state, remove_resource"]}
{"id": "C92", "title": "What oarstat shows of the jobs is what is recorded, for the jobs selected", "statement": "oarstat shows exactly the jobs selected by its options, restricted by the condition given with --sql; for each it shows the fields asked with their labels, the time it ran, how it ended, the request that was placed as a user would write it; -s and -e show the state and the events of every job named; a wrong argument is told as an error.", "quantifier": "all databases, options, conditions, fields, dates and requests", "why_tests_cant": "the condition and the fields are free texts and the requests have any number of groups and levels in any order of the rows; tests use one-group requests and plain conditions", "anchors": ["oar/cli/oarstat.py: parse_field_label, get_table_lines_fields, print_state, print_events, user_option_flag_or_string, cli", "oar/lib/basequery.py: filter_jobs_for_user, get_actual_requests", "oar/lib/tools.py: format_actual_request", "oar/lib/job_handling.py: convert_status_code, get_jobs_state"]}
{"id": "C93", "title": "The quota rules are applied as written in their file", "statement": "Every rule of the file of the quotas is loaded with its four fields and its limits: an integer is this integer, a decimal number or a share of the resources is its value rounded down, hours are converted to seconds; at each second of the week the rules in force are those of the period written for it, or of the default entry; a period without rule sets no limit; a file that cannot be applied is refused when it is loaded.", "quantifier": "all files: rule sets, keys, integers, decimals and shares of any size, weekly periods, one-shot periods, and every second of the week", "why_tests_cant": "the texts of numbers and periods form an unbounded language, decimals meet binary rounding, and periods meet cyclic weeks; tests load a few files of the documentation", "anchors": ["oar/kao/quotas.py: Quotas.quotas_rules_fromJson, Quotas.load_quotas_rules, Quotas.init_rule_tree, Quotas.__init__, Calendar.__init__, Calendar.periodical_fromJson, Calendar.oneshot_fromJson"]}
{"id": "C94", "title": "What oarnodes shows of the nodes is what is recorded", "statement": "oarnodes shows exactly the resources named by node, id or condition, in order, with the properties asked; the states shown tell standby resources apart; the summary gives for each node its state, the running jobs, and how many of its resources are free, a free resource being alive and used by no job; the events of a node are all those since the date, or the last 30; an unknown node is told by the exit status.", "quantifier": "all databases and options", "why_tests_cant": "the counts depend on every combination of states of jobs and resources, and the options combine; tests print one table of one database", "anchors": ["oar/cli/oarnodes.py: oarnodes, cluster_summary, cluster_details, print_resources_table, print_resources_states_for_hosts, print_events", "oar/lib/event.py: get_events_for_hostname_from", "oar/lib/resource_handling.py: get_resources_state", "oar/lib/node.py: get_all_network_address, get_resources_of_nodes"]}
{"id": "C95", "title": "Two jobs that occupy resources never hold the same resource, over all histories of scheduling rounds", "statement": "Starting from tables where no job occupies resources, whatever the sequence of scheduling rounds (each reads the tables, places running and waiting jobs, writes the Gantt, and launches) and of changes by the other programs (jobs submitted, ended, killed, suspended), no resource is assigned to two jobs which both occupy resources (being launched, running, finishing, suspended, resuming), timesharing and placeholders aside.", "quantifier": "all databases, sequences of rounds and of changes between them, dates, orders of the rows of a query", "why_tests_cant": "the property links the numbering of the resources, the timelines, the scheduling, the launching and the state kept in the database between rounds; it must hold after any number of rounds; tests run one round on a fresh database", "anchors": ["oar/kao/meta_sched.py: meta_schedule, gantt_init_with_running_jobs, handle_waiting_reservation_jobs, handle_jobs_to_launch, prepare_jobs_to_be_launched", "oar/lib/job_handling.py: get_jobs_in_multiple_states, extract_scheduled_jobs, save_assigns, get_gantt_jobs_to_launch", "oar/kao/kamelot.py: internal_schedule_cycle", "oar/kao/scheduling.py: schedule_id_jobs_ct, set_slots_with_prev_scheduled_jobs"]}
{"id": "C96", "title": "A job that is launched holds exactly what one of its alternatives asked for, on machines that are up", "statement": "After a scheduling round, each waiting job that has been launched starts now, with one of the alternatives of its submission; the resources assigned to it answer the request of this alternative (properties, blocks of the hierarchy, counts), no more and no less; each is alive and stays available until the end of the walltime.", "quantifier": "all databases, requests, hierarchies, states and dates of availability of the resources, orders of the rows of a query", "why_tests_cant": "the property goes through the numbering of the resources, the hierarchy, the timelines, the Gantt tables and the extraction of the rows: an error at any joint gives a job resources it did not ask for", "anchors": ["oar/kao/meta_sched.py: meta_schedule, handle_jobs_to_launch", "oar/kao/scheduling.py: find_resource_hierarchies_job, assign_resources_mld_job_split_slots", "oar/lib/hierarchy.py: find_resource_hierarchies_scattered", "oar/lib/job_handling.py: extract_scheduled_jobs, save_assigns, get_gantt_jobs_to_launch", "oar/lib/resource.py: ResourceSet"]}
{"id": "C97", "title": "A waiting job is delayed only by the running jobs and by the jobs before it", "statement": "If resources that answer one of the alternatives of a waiting job are held by no running job from a date on, are available long enough and are not taken by the jobs that come before it in the order of the scheduling, the round places the job so that it ends no later than it would there; when that date is now, no machine has to be switched on and no best-effort job has to be killed, the job is launched by this round. Jobs after it never delay it.", "quantifier": "all databases, requests, hierarchies, groups of queues, orders of the waiting jobs, positions of the job, dates", "why_tests_cant": "it is a liveness claim for every position in every order of every workload, through the timeline, the cache of the searches, the Gantt and the launching; a test sees a few small schedules", "anchors": ["oar/kao/meta_sched.py: meta_schedule, gantt_init_with_running_jobs, call_internal_scheduler", "oar/kao/kamelot.py: internal_schedule_cycle", "oar/kao/scheduling.py: schedule_id_jobs_ct, assign_resources_mld_job_split_slots, find_first_suitable_contiguous_slots", "oar/kao/slot.py: SlotSet", "oar/lib/resource.py: ResourceSet"]}
{"id": "C98", "title": "A scheduling round always ends", "statement": "A round of the meta-scheduler always ends and returns the exit code 0 or 2, whatever the jobs that wait and the jobs that run: it does not raise, it does not loop, so one job can never prevent the others from being launched.", "quantifier": "all databases, requests, hierarchies, groups of queues, orders of the waiting jobs, dates", "why_tests_cant": "it is the absence of an exception and of an endless loop on every input, through the timeline, the searches, the Gantt and the launching; a test shows the absence on the inputs it tries", "anchors": ["oar/kao/meta_sched.py: meta_schedule, gantt_init_with_running_jobs, call_internal_scheduler, handle_jobs_to_launch", "oar/kao/kamelot.py: internal_schedule_cycle", "oar/kao/scheduling.py: schedule_id_jobs_ct, assign_resources_mld_job_split_slots, find_first_suitable_contiguous_slots, set_slots_with_prev_scheduled_jobs", "oar/kao/slot.py: SlotSet.split_slots_jobs, SlotSet.split_at_after, SlotSet.split_at_before"]}
{"id": "C99", "title": "A predicted start date is not postponed and a waiting job does not starve", "statement": "When the machines stay the same, the running jobs end no later than expected and no other job overtakes it, the date at which a waiting job is predicted to end never moves later from one round of the meta-scheduler to the next, and after finitely many rounds the job is launched.", "quantifier": "all databases, requests, hierarchies, groups of queues, dates of the rounds, early ends of the running jobs, arrivals of other jobs between the rounds", "why_tests_cant": "it is a liveness property of an unbounded sequence of rounds: each round forgets the predictions and computes them again, so that the promise has to be derived again from the state of the database after any history", "anchors": ["oar/kao/meta_sched.py: meta_schedule, gantt_init_with_running_jobs, call_internal_scheduler, handle_jobs_to_launch", "oar/kao/scheduling.py: schedule_id_jobs_ct, find_first_suitable_contiguous_slots, assign_resources_mld_job_split_slots", "oar/lib/job_handling.py: save_assigns, get_after_sched_no_AR_jobs"]}
{"id": "C100", "title": "oarwalltime requests the change written, within the limits set for the queue", "statement": "`oarwalltime JOB CHANGE` requests exactly the change written ([+-]h[:m[:s]]), under the identity of the effective user and within the limits set by the administrator for the queue of the job; it exits with 0 exactly when the request is recorded, with the code of the reason otherwise and then changes nothing; `oarwalltime JOB` shows the state of the change. Whatever the documented form of the settings, the command does not raise.", "quantifier": "all texts, settings (numbers, ratios, dictionaries by queue, lists of users), jobs, users, rows already recorded", "why_tests_cant": "the texts, the dictionaries of the settings and the states of the job are unbounded, and a test of the command uses one setting, in general the one that works", "anchors": ["oar/cli/oarwalltime.py: oarwalltime", "oar/lib/walltime.py: get_conf, get, request", "oar/lib/tools.py: hms_to_duration", "oar/lib/configuration.py: DEFAULT_CONFIG"]}
{"id": "C101", "title": "The keys of simultaneous submissions are not mixed", "statement": "Whatever the number of submissions with a job key that are treated at the same time by the commands and by the API server, and whichever processes are interrupted, each job gets the key given or generated for it, no user gets the private key of another one, no submission fails because of another one, and no private key is left in the temporary files.", "quantifier": "all numbers of submissions and processes, keys, interleavings of the steps, crash points", "why_tests_cant": "the property depends on the interleaving of the steps of several submissions and on the point where a process dies; a unit test runs one submission", "anchors": ["oar/lib/submission.py: job_key_management", "oar/api/routers/job.py: submit"]}
{"id": "C102", "title": "External mode: a failing scheduler harms its own queue only, and the resources stay exclusive", "statement": "With METASCHEDULER_MODE=external, whatever the queues, the jobs and the fate of the schedulers (missing program, exception, signal at any point), a round never gives a resource to two jobs, the dates planned for waiting jobs with a common resource do not overlap, a queue is stopped exactly when its scheduler failed, a failing scheduler changes nothing for the other queues, quotas may be used, and advance reservations are examined.", "quantifier": "all sets of queues, jobs, resources, return codes, signals and crash points of the schedulers, all histories of rounds in both modes", "why_tests_cant": "the property ranges over the fate of every process, the tables left by the schedulers before, and over histories of rounds", "anchors": ["oar/kao/meta_sched.py: call_external_scheduler", "oar/kao/kamelot.py: schedule_cycle", "oar/kao/kamelot.py: main", "oar/lib/job_handling.py: save_assigns"]}
{"id": "C103", "title": "The end of a round answers every user once its decision is taken", "statement": "At the end of a scheduling round, a failed job becomes Error and its waiting client is told, an accepted advance reservation becomes Waiting exactly when its user has received the confirmation, interactive users receive the predicted date or lose their job when they are gone, the jobs to launch are asked to the launcher, and suspended jobs asked to resume run again when their resources are free; one lost client does not prevent the others from being answered.", "quantifier": "all tables of jobs, all addresses of clients, all behaviours of the network, return codes of the resume script, any number of rounds", "why_tests_cant": "the property ranges over the states of all the jobs, over which clients are lost and when, and over any number of rounds", "anchors": ["oar/kao/meta_sched.py: meta_schedule", "oar/kao/meta_sched.py: notify_to_run_job", "oar/lib/tools.py: notify_tcp_socket", "oar/lib/job_handling.py: get_jobs_on_resuming_job_resources", "oar/lib/job_handling.py: resume_job_action", "oar/lib/job_handling.py: get_gantt_waiting_interactive_prediction_date"]}
{"id": "C104", "title": "The requests of the API act only on the jobs asked for, for the user of the token", "statement": "Deletions, signals, checkpoints, holds and resumptions asked through HTTP change nothing without a valid token; with one, whatever the path and the parameters, they change only the jobs named by the request and on which this user may act; a request with the right of its user does what its name says (a deletion deletes, a signal is delivered, a checkpoint is registered, an unknown operation is refused) and its exit_status is 0 exactly when it was done.", "quantifier": "all paths, methods, parameters, users, tables of jobs, arrays, behaviours of the nodes", "why_tests_cant": "the paths are matched by order with a catch-all word and numbers are passed to functions that expect texts; tests only use the words of the documentation", "anchors": ["oar/api/routers/job.py: delete", "oar/api/routers/job.py: signal", "oar/api/routers/job.py: resume", "oar/api/routers/job.py: hold", "oar/cli/oardel.py: oardel", "oar/lib/tools.py: signal_oarexec"]}
{"id": "C105", "title": "A signal asked by a user reaches his job and makes the node do nothing else", "statement": "oardel with a signal or a checkpoint, Leon and Sarko make the node of the job execute exactly: write the signal of the user in its file, read the process of oarexec, continue it and send it the signal, each step only after the success of the previous one; only for a job on which the user may act, only on its host; the text of the signal is data: it never makes the node execute another command, and asking for a signal never deletes the job.", "quantifier": "all jobs, users, texts of signal, options, behaviours of the node (which commands succeed)", "why_tests_cant": "the text is put in the text of a command read by two shells; the property ranges over all texts and over the syntax of the shell", "anchors": ["oar/lib/tools.py: signal_oarexec", "oar/lib/tools.py: get_oar_pid_file_name", "oar/lib/tools.py: get_oar_user_signal_file_name", "oar/cli/oardel.py: oardel"]}
{"id": "C106", "title": "The results of the remote commands name exactly the nodes that failed", "statement": "A remote command on the nodes of a job reports as bad exactly the nodes that did not report a success, each once; a node that hangs is reported without hiding the others; the start of oarexec is a success exactly when oarexec says so; the cpusets cover every node of the job with exactly the values of its resources; a job is started only after the success of the creation of the cpusets on all its nodes.", "quantifier": "all outputs of the remote command, all lists and names of hosts, all tables of resources and assignments, time-outs", "why_tests_cant": "the outputs come from the network; the property ranges over all texts and all sets of nodes", "anchors": ["oar/lib/tools.py: manage_remote_commands", "oar/lib/tools.py: launch_oarexec", "oar/lib/job_handling.py: get_cpuset_values", "oar/modules/bipbip.py: BipBip.run"]}
{"id": "C107", "title": "A job that is over releases its rows and its resources, a job that is not keeps them", "statement": "At the end of a job its moldables, resources requested, types, dependencies and assigned resources are archived: it has no host any more and its nodes are no longer occupied; before its end all its rows are current, its hosts are exactly those of the resources predicted at its launching, without the nodes taken out at its start, whatever happens to the other jobs, those it depends on included; nothing is deleted.", "quantifier": "all histories of submissions, schedulings, launchings, changes of state, failures of nodes and changes of the resources; all crash points of the end and of the launching", "why_tests_cant": "it ranges over all histories of all the jobs together and over the points where the server may stop", "anchors": ["oar/lib/job_handling.py: log_job", "oar/lib/job_handling.py: set_job_state", "oar/lib/job_handling.py: add_resource_job_pairs", "oar/lib/job_handling.py: get_job_current_hostnames", "oar/lib/job_handling.py: archive_some_moldable_job_nodes", "oar/lib/node.py: get_current_assigned_nodes", "oar/kao/meta_sched.py: prepare_job_to_be_launched", "oar/modules/finaud.py: Finaud.run"]}
{"id": "C108", "title": "Two jobs use a resource at the same time only when they may share it", "statement": "Two jobs hold the same resource at the same date only if both asked to share it (type timesharing, with users and names that agree), or if one is a placeholder in which the other is allowed; two timesharing jobs whose users and names agree can share.", "quantifier": "all sequences of insertions of jobs in a timeline, with any types, windows and resources; all dates and resources", "why_tests_cant": "it ranges over all sequences of insertions and all overlaps of windows, also across the rounds that insert the jobs again", "anchors": ["oar/kao/slot.py: SlotSet.sub_slot_during_job", "oar/kao/slot.py: intersec_ts_ph_itvs_slots", "oar/kao/slot.py: SlotSet.split_slots_jobs", "oar/lib/job_handling.py: get_jobs_types", "oar/lib/job_handling.py: get_scheduled_jobs"]}
{"id": "C109", "title": "At each date of the timeline the quotas are those of the calendar", "statement": "With temporal quotas, each date of the scheduler's timeline has the rules of the period of the week (or of the one-shot period) that contains it, whenever the timeline is built; cutting the timeline changes neither the free resources nor the dates, and inserting a job changes no rules.", "quantifier": "all calendars, dates of construction, timelines and dates", "why_tests_cant": "it ranges over all calendars and all dates at which the scheduler may be started", "anchors": ["oar/kao/slot.py: SlotSet.__init__", "oar/kao/slot.py: SlotSet.temporal_quotas_split_slot", "oar/kao/quotas.py: Calendar.rules_at", "oar/kao/quotas.py: Calendar.next_rules", "oar/kao/scheduling.py: find_first_suitable_contiguous_slots_quotas"]}
{"id": "C110", "title": "The client of an interactive submission is told how its submission ends", "statement": "The client of an interactive submission prints the messages of the server in order, connects to the job when the server announces that it is ready, and exits with an error when the job is refused, killed or fails; the client of a reservation says that it is granted exactly when the server grants it.", "quantifier": "all sequences of messages of the server, and all dates, predictions and messages of jobs they carry", "why_tests_cant": "it ranges over all the sequences of messages a server may send to a client", "anchors": ["oar/cli/oarsub.py: cli", "oar/lib/tools.py: notify_tcp_socket", "oar/kao/meta_sched.py: meta_schedule", "oar/modules/bipbip.py: BipBip.run", "oar/modules/leon.py: Leon.run"]}
{"id": "C111", "title": "A connection to a job gives its user a shell of the job, and nothing more", "statement": "Connecting to a job executes exactly one command on the frontend, ssh to the host of the job; on the node the terminal is given to the user of the job, then the script is executed as this user with the variables of the job, its directory and its shell. Only the user of the job and oar can connect, to a running job only, and the exit code tells how the connection ended.", "quantifier": "all jobs, options, users, exit statuses of ssh, texts of the fields of a job", "why_tests_cant": "the fields of a job are arbitrary texts of users, interpreted by two shells one after the other", "anchors": ["oar/cli/oarsub.py: connect_job", "oar/cli/oarconnect.py: cli", "oar/lib/tools.py: get_oarexecuser_script_for_oarsub", "oar/lib/submission.py: JobParameters.check_parameters"]}
{"id": "C112", "title": "The accounting report of a period is the consumption of the period", "statement": "For every user, what the accounting report shows as used and asked between two dates is the sum over the accounted jobs of this user of the time they ran (asked for) between these dates, times the number of their resources; the figures of the projects add up to those of the user; the array of all users has one line per user who consumed; successive periods add up.", "quantifier": "all histories of accounting passes, window sizes, periods, users, projects, and orders in which the database gives the ties", "why_tests_cant": "the figures go through windows, sums grouped by the database and dictionaries; the period is arbitrary with respect to the windows", "anchors": ["oar/lib/accounting.py: get_accounting_summary, get_accounting_summary_byproject, update_accounting", "oar/cli/oarstat.py: print_accounting, gather_all_user_accounting"]}
{"id": "C113", "title": "An API token gives the rights of the user who asked for it, for a limited time, and never after a revocation", "statement": "In every history of deliveries, renewals, revocations and restarts of the API, a request accepted as one of a user bears a token that comes, by renewals, from one this user asked for; it was issued less than the configured duration ago; a revocation ends the tokens of the user and all those obtained from them by renewal, and its entry can be removed once the duration of the tokens has elapsed.", "quantifier": "all histories of deliveries, renewals, revocations, restarts and delays, all users and durations", "why_tests_cant": "unbounded chains of renewals interleaved with revocations and restarts", "anchors": ["oar/api/auth.py: get_token_data, need_authentication", "oar/lib/access_token.py: create_access_token", "oar/api/routers/frontend.py: get_token, whoami", "oar/api/app.py: create_app", "oar/cli/oarsub.py: create_api_token"]}
{"id": "C114", "title": "The API tells about a job what is recorded for this job, and nothing of the other ones", "statement": "A list of jobs with details and the view of one job tell, for each job, its columns (the empty ones left out), its exit status, the resources and the nodes assigned to it, its events, its walltime, its types and its request, whatever the other jobs of the page and the order of the rows; both views agree; an unknown job is answered by 404; details=false gives no detail.", "quantifier": "all contents of the tables, all pages of jobs, all orders of the rows", "why_tests_cant": "unbounded tables and pages, all orders of the rows of the database", "anchors": ["oar/api/routers/job.py: index, show, attach_types, attach_events, attach_walltime, attach_resources, attach_nodes, attach_actual_resources, attach_exit_status, macro_replacements, remove_null_fields", "oar/lib/basequery.py: get_assigned_jobs_resources, get_actual_requests, get_jobs_walltime, get_jobs_types, get_jobs_events, groupby_jobs_resources, groupby_jobs_requests", "oar/lib/job_handling.py: parse_job_type"]}
{"id": "C115", "title": "The programs connect to the database that the configuration describes", "statement": "For every kind of database, login, password, machine, port and name of database written in the configuration, the programs connect to this machine, port and database, under this login and with this password, and with no password when there is none; a parameter that is missing is told.", "quantifier": "all configurations, all texts of the parameters", "why_tests_cant": "all texts, among them the characters that have a meaning in an address", "anchors": ["oar/lib/configuration.py: Configuration.get_sqlalchemy_uri, get_namespace, load_file", "oar/lib/database.py: EngineConnector.get_engine"]}
{"id": "C116", "title": "A node is halted only if no job ran on it during the idle delay, and an idle node is halted", "statement": "Along every history of launchings, ends of jobs, rounds of scheduling and changes of the states of the nodes, the energy saving halts a node only when every job placed on it ended more than the idle delay ago; a node whose jobs all ended before, with no job predicted soon and no recent wake-up, is halted.", "quantifier": "all histories of rounds, plans, launchings, ends, crashes at the end of a job, changes of the nodes and delays", "why_tests_cant": "it ranges over all histories and interleavings of the rounds with the ends of the jobs", "anchors": ["oar/lib/job_handling.py: update_scheduler_last_job_date, set_job_state, get_jobs_in_multiple_states", "oar/kao/meta_sched.py: gantt_init_with_running_jobs, prepare_job_to_be_launched, nodes_energy_saving", "oar/lib/node.py: search_idle_nodes"]}
{"id": "C117", "title": "Reading a list of the API page after page while the system works", "statement": "A client that asks for the pages of a list (resources, jobs, jobs of a resource, events of a job) one after the other, until an error 404 or a page that is not full, obtains every row that was in the list during the whole reading, once, and nothing that was never in it, whatever happens to the tables between two requests.", "quantifier": "all histories of the tables between the requests, all orders in which the database gives the rows, all sizes of pages and all filters", "why_tests_cant": "it ranges over all interleavings of the requests with the changes of the tables and over the orders a database may choose; a test reads a fixed table", "anchors": ["oar/api/query.py: paginate, PaginationQuery", "oar/lib/basequery.py: get_resources, get_jobs_resource, get_one_job_events, get_jobs_for_user", "oar/api/routers/resource.py: index, jobs", "oar/api/routers/job.py: index, get_events"]}
{"id": "C118", "title": "The energy saving counts as idle the nodes without job, and its commands and events are about the right nodes", "statement": "In every state of the database, the nodes that Greta counts as idle are the alive nodes on which no job is alive, so that each class keeps its minimum of free nodes; the nodes that may be woken up are those absent and available; each command launched runs the program of its kind with the name of its node on its input; each one is recorded by an event about this node, and the date of the last wake-up read by the meta-scheduler is the one of the last wake-up launched.", "quantifier": "all states of the database, all classes, states of Greta, messages, lists of commands and histories of events", "why_tests_cant": "it ranges over all states of the tables and all lists of commands; tests replace the queries or check one node", "anchors": ["oar/lib/node.py: get_alive_nodes_with_jobs, get_nodes_that_can_be_waked_up, get_nodes_with_given_sql, get_last_wake_up_date_of_node", "oar/modules/greta.py: Greta.run, command_executor, WindowForker.add_commands_toLaunch", "oar/lib/event.py: add_new_event_with_host"]}
{"id": "C119", "title": "The message of a job tells its resources, walltime, mode, queue, name, project, types and karma", "statement": "At every moment of the life of a job, the message shown by oarstat tells its number of resources, its walltime, its mode, its queue, its name, its project and its types: two jobs that differ on one of these have different messages; the message follows the reductions of a reservation that loses resources or that is launched late; and the last karma printed by oarstat --accounting is the one of the last job started by the user in the project.", "quantifier": "all submissions, jobs, tables, histories of rounds, reductions and karmas", "why_tests_cant": "it ranges over all names, queues, projects and types and over all histories of rounds; tests compare one text", "anchors": ["oar/lib/tools.py: format_job_message_text", "oar/lib/job_handling.py: job_message, save_assigns, set_job_last_karma, get_jobs_in_multiple_states", "oar/kao/meta_sched.py: gantt_init_with_running_jobs, handle_waiting_reservation_jobs, handle_jobs_to_launch", "oar/lib/accounting.py: get_last_project_karma", "oar/cli/oarstat.py: print_accounting"]}
{"id": "C120", "title": "The plan shown to the users is the plan of a round, at every moment", "statement": "At every moment, whatever the rounds that crashed and the point where they did, the plan that oarstat --gantt and the lists of jobs of an interval read is entirely the plan of the last round that has finished: it is never a mixture, a planned job is always in it, and the users do not see it empty while a round is running.", "quantifier": "all histories of rounds, all plans, all crash points and all moments of reading between two commits", "why_tests_cant": "it ranges over all crash points and all moments of reading; tests read after one complete round", "anchors": ["oar/kao/meta_sched.py: update_gantt_visualization, meta_schedule", "oar/lib/basequery.py: BaseQuery.get_jobs_for_user", "oar/lib/models.py: GanttJobsPredictionsVisu, GanttJobsResourcesVisu"]}
{"id": "C121", "title": "A round of walltime changes changes exactly the jobs that asked for it, fairly", "statement": "When the metascheduler processes the walltime change requests, exactly the running jobs with a request are considered, each once, with their own resources. For each one the walltime of the request that was chosen changes by what is granted, which moves from the pending to the granted time; an increase is at most what is asked, stays within the container of the job, leaves the security time before the next job planned on its resources (other than those with which the resource may be shared) and is as large as these limits allow; a reduction does not end the job in the past nor before the jobs inside of it; the options of the request remain until it is satisfied. Nothing else changes, a request has no effect on the others, a crash loses no time, and the round goes to its end.", "quantifier": "all databases (jobs, types, requests, plans, logs), all orders of the rows returned by the server, all settings, all crash points between commits", "why_tests_cant": "it ranges over all databases, orders of rows and crash points; the tests process one request of one job", "anchors": ["oar/kao/walltime_change.py: process_walltime_change_requests", "oar/lib/job_handling.py: get_jobs_with_walltime_change, get_possible_job_end_time_in_interval, get_running_job, change_walltime", "oar/lib/walltime.py: update_walltime_change_request", "oar/kao/meta_sched.py: meta_schedule"]}
{"id": "C122", "title": "Updating the accounts counts each job once, even when it is interrupted", "statement": "oaraccounting accounts each job that is over once, and when it is killed anywhere the next run accounts what was not: no consumption is lost or counted twice. After --reinitialize, one run gives accounts that are exactly the consumption of all the jobs that are over, whatever the accounts were before. --delete-before N deletes exactly the windows that ended N seconds ago or more and changes nothing else.", "quantifier": "all accounts, all jobs, all window sizes, all crash points of the command", "why_tests_cant": "it ranges over all accounts and crash points; the tests run the command once, to its end", "anchors": ["oar/cli/oaraccounting.py: cli", "oar/lib/accounting.py: check_accounting_update, add_accounting_row, delete_all_from_accounting, delete_accounting_windows_before", "oar/lib/models.py: BaseModel.create"]}
{"id": "C123", "title": "oarremoveresource removes the Dead resources given, all of them, and disturbs no job that runs", "statement": "For an administrator the command removes all the Dead resources given, with their logs and the jobs that are over and have used them, and nothing else; its exit status is 0 exactly when all are removed; a resource that cannot be removed does not keep the others from being removed; killed anywhere, each resource is removed entirely or not at all and the command can be run again. A job that is not over keeps its resources, and those who wait for its end still do. Nobody else removes anything.", "quantifier": "all tables, users, lists of resources and points where the command is killed", "why_tests_cant": "it ranges over all tables and lists; the tests remove one resource that no job has used", "anchors": ["oar/cli/oarremoveresource.py: cli", "oar/lib/resource_handling.py: remove_resource", "oar/cli/utils.py: CommandReturns", "oar/lib/job_handling.py: get_current_jobs_dependencies"]}
{"id": "C124", "title": "oarstat -p shows the properties of the resources of each job named", "statement": "oarstat --properties shows, for each job named by -j or by its array, each resource assigned to it, once, by increasing identifiers, with all its properties and their values except those of the system; a job without resource is told; what is printed tells the values apart; -j and --array together are refused.", "quantifier": "all tables of jobs, resources and assignments, all options and values of the properties", "why_tests_cant": "it ranges over all tables and all texts; the tests print one job and compare the exit status", "anchors": ["oar/cli/oarstat.py: print_properties, cli", "oar/lib/job_handling.py: get_job_resources_properties, get_array_job_ids", "oar/lib/tools.py: check_resource_system_property"]}
{"id": "C125", "title": "The answers given to the new reservations of a queue are what the tables and the timeline record", "statement": "In a round, each new reservation of a queue is examined once, in order, against what the timeline and the reservations accepted before it leave: it is accepted at the date asked (or now when late), on resources left during its whole time, and refused only when it is over or cannot be satisfied. The row of each job says what was answered, the predictions recorded are exactly those of the accepted ones with the resources promised, nothing else changes, and nothing scheduled afterwards can take these resources.", "quantifier": "all tables, all lists of reservations, all timelines, requests and dates", "why_tests_cant": "it ranges over all lists of reservations on all timelines: what one gets depends on all those before it; the tests accept one reservation and refuse one", "anchors": ["oar/kao/meta_sched.py: check_reservation_jobs, meta_schedule", "oar/lib/job_handling.py: save_assigns, set_job_state"]}
{"id": "C126", "title": "What the API tells about the load of the cluster is what the tables and the administrator's script say", "statement": "GET /resources/busy tells the number of the resources held by the jobs that are not over, each counted once however many jobs share it; GET /stress_factor tells the value that the script of the administrator writes last, and says when there is none; oarnotify sends its message to the server for the administrators only.", "quantifier": "all tables of jobs and assignments, all texts written by the script, all users", "why_tests_cant": "it ranges over all tables and all texts; the tests read the answer on one state", "anchors": ["oar/lib/resource_handling.py: get_count_busy_resources", "oar/api/routers/resource.py: busy", "oar/api/routers/stress_factor.py: index", "oar/cli/oarnotify.py: oarnotify"]}
{"id": "C127", "title": "A machine that was to leave at a given date is suspected once this date is past", "statement": "The periodic watcher asks the state Suspected for exactly the desktop computing resources that are Alive and whose expiry date is past, reports each departure with its node and tells the server, changes nothing else, and, once the states are changed, such a resource is Suspected and never reported again. (Refuted: such a resource becomes Dead when it has been Alive for longer than DEAD_SWITCH_TIME; it is reported again until the states are changed.)", "quantifier": "all histories of the tables of resources, all expiry dates, all dates and delays", "why_tests_cant": "it ranges over all histories of the states; the desktop computing mode is not tested", "anchors": ["oar/modules/sarko.py: Sarko.run", "oar/lib/resource_handling.py: get_expired_resources"]}
