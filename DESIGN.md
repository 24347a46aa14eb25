# Formal model of oar-team/oar3 (Lean 4) — design

## 1. Trusted base

* Lean 4.33.0 kernel and the three standard axioms `propext`, `Classical.choice`, `Quot.sound`
  (each theorem uses a subset of these; `#print axioms` is run by `vcheck`). No axiom is added,
  no `native_decide` / `bv_decide` is used.
* Mathlib definitions of `Finset` (finite sets) and basic list facts, imported module by module.
* The reading of the Python text in `/repo`: the code is never run. Each definition of the model
  cites the file and lines it models, and says where it simplifies.
* External behaviour which is *assumed*, not modelled:
  * `procset.ProcSet` implements finite sets of integers (`&`, `|`, `-`, `len`, `==`,
    `issubset`); the model uses `Finset Nat`.
  * SQL/SQLAlchemy queries return the rows satisfying the `filter` in the `order_by` order;
    tables are modelled as lists of rows.
  * A module is run with the DB to itself between two commits (no interleaving inside a module).
  * `time`, OS signals, sockets and child processes appear as inputs (events) of state machines.

## 2. Conventions

* `Verif/<Area>.lean` : the model (small total functions that mirror the Python functions, errors
  as values), with source citations.
* `Verif/<Area>Spec.lean` or a `Spec` section : vocabulary of the English properties,
  independent from the model's helpers.
* `Verif/<Area>Lemmas.lean` : helper lemmas.
* `Verif/<Area>Props.lean` : the property theorems, each followed by an `example` that a
  concrete non-trivial case meets the hypotheses. When the code violates the English property a
  theorem `..._violated` proves the negation with a concrete witness, and the part which holds is
  proved under the suffix `_partial`.
* `Verif/SharpCli.lean`, `SharpJobs.lean`, `SharpKao.lean`, `SharpMore.lean` : further statements about properties of other modules, written when an
  automatic change of the model (section 7) escaped all the theorems.
* Python exceptions (KeyError, AssertionError, TypeError) are modelled by `none`/`Except`
  where they are reachable; dict iteration order is insertion order.

## 3. Plan, property by property

| id | what is modelled | how it is proved |
|----|------------------|------------------|
| C01 | `SlotSet` as the dict of linked slots (ids, prev, next), `new_id`, both splits, `split_slots` | well-formedness (`Chain`) preserved by each op, induction over op list |
| C02 | `split_slots` + `sub_slot_during_job` | pointwise characterisation of availability at time t; boundary counter-example |
| C03 | `schedule_id_jobs_ct` loop on top of the finder | invariant: free timeline ∩ allocated = ∅, induction on jobs |
| C04 | finder, `traverse_with_width`, `intersec_itvs_slots` | window walk lemma |
| C05 | hierarchy functions | inductive predicate `Shape` |
| C06 | hierarchy functions | filter/take characterisation |
| C07 | hierarchy + cache | monotonicity by structural induction; invariant of the cache |
| C08 | finder | characterisation as first success of a list of candidates |
| C09 | moldable selection | fold invariant |
| C10 | dependency loop + `slot_id_at` | counter-examples + partial theorem |
| C11 | `intersec_ts_ph_itvs_slots` | counter-example + partial (no empty prefix) |
| C12 | `find_resource_hierarchies_job` | counter-example + partial (disjoint constraints) |
| C13 | container creation in the loop | corollary of C04 on the container's slot set |
| C14 | `check_reservation_jobs` | characterisation of accepted reservations |
| C15–C17 | `Quotas` counters, rules, check | fold lemmas |
| C18 | `Calendar` | negation + partial |
| C19, C20 | accounting | arithmetic induction on windows; history model |
| C21, C22 | walltime | decision logic + conservation invariants |
| C23, C24 | job states / log, frag/hold/resume | history induction |
| C25, C26 | leon / sarko | timed state machine |
| C27 | bipbip commander | interleaving model |
| C28 | almighty | automaton histories |
| C29 | durations | arithmetic + string level round trip |
| C30 | ResourceSet | fold invariant |
| C31 | queues & sorting | permutation/sortedness |
| C32, C33 | meta scheduler launch logic | decision logic on tables |
| C34, C35 | node_change_state | event processing |
| C36 | gantt tables | list filters |
| C37 | energy saving / greta | fold invariant |
| C38–C40 | submission | list / string processing |
| C41–C43 | job_handling helpers | list processing |
| C44–C46 | api / tools | decision logic / strings |
| C47 | `split_slots(sub=False)`, `add_slot_during_job` (Slot, SlotInverse) | pointwise characterisation, inverse |
| C48 | `set_node_state` and node state changes (Resources, NodeChange) | decision logic; witness |
| C49 | the pass of `schedule_id_jobs_ct` with its KeyErrors (Scheduling) | witnesses; induction over the pass |
| C50 | round of the meta-scheduler calling the walltime changes (Walltime) | the call has the wrong arity: violated |
| C51, C52 | resource state logs, timeouts (Resources*) | history induction over all state changes |
| C53, C54 | `NodeChangeState.run` (NodeChange, JobsEvents) | fold over events |
| C55 | `Finaud.run` (Resources*) | decision logic on the pings |
| C56 | `remove_resource` (Resources*) | filters of the tables |
| C57, C58 | `BaseQuery*` and API filters (Api) | filters; witnesses |
| C59 | `ResourceSet`, constraints (ResourceSet) | fold invariant; AND/OR texts as disjunctive normal forms |
| C60, C61 | karma / multifactor / Perl hash (Queues) | order lemmas over rationals; string level |
| C62 | `get_jobs_types` (JobTypes) | exact condition |
| C63 | `save_assigns`, `extract_scheduled_jobs` (Launch*) | round trip |
| C64 | `get_data_jobs` over the tables of the submission (DataJobs*) | invariant of the loop with aliasing |
| C65 | `estimate_job_nb_resources` (Estimate) | exact condition; comparison with the scheduler |
| C66 | `resubmit_job` (Resubmit) | copy of the request; tables extended |
| C67 | `Greta.run`, `WindowForker` (Greta*) | invariant over all histories; universal counter-examples |
| C68 | `BipBip.run` as a function of the results of its remote commands and of what happens meanwhile (Bipbip, BipbipProps) | case analysis, filters of the recorded commands; counter-examples on histories |
| C69 | the launch composed with the histories and the treatment of the events (BipbipState, BipbipReport, BipbipHist) | a run is a history step; composition with C34/C35; counter-examples (BipbipWitness) |
| C70 | end of execution, `check_end_of_job`, `job_finishing_sequence` with their exceptions (BipbipState, BipbipReport) | exact database after the end; when it raises |
| C71 | the rules of `etc/oar/admission_rules.d` run by `apply_admission_rules` (Admission) as functions on the parameters; regular expressions as predicates on texts | exact condition of acceptance `Allowed`, exact result `JobOf` (AdmissionProps); disagreements (AdmissionText) |
| C72 | texts of conditions and their meaning (SqlText: quotes, parentheses, AND, OR), nesting by the rules, the submission and `get_data_jobs` | induction on texts and tokens; composition with the submission (AdmissionText) |
| C73 | rule 11 and the histories of the table of the jobs (AdmissionResv) | invariant of the histories; unbounded counterexample |
| C74 | the FIFO scheduler (Fifo) | induction over the waiting jobs with the resources left; witnesses |
| C75 | the basic scheduler (BasicSched), on the timelines of Slot | induction over the windows, the alternatives and the jobs, on the lemmas of C04 and C08; witnesses |
| C76 | the runs of oar_phoenix and their status file (Phoenix) | induction over the nodes and over the history of runs; witnesses |
| C77 | the test of the nodes and its methods (Ping), with the node checker of C55 | text lemmas (lines, patterns), induction over the lines; witnesses and statements for all outputs |
| C78 | the commands oardel, oarhold, oarresume and their exit status (Cli) over the database of the jobs (Jobs) | specifications of the requests (C20, C21) lifted by induction over the selected jobs; witnesses and general refutations |
| C79 | the update of the priorities, the launches and ends, `oardel -b` (Priority) | invariant over the histories: priority = first value + sum over the jobs counted; witnesses of drift |
| C80 | the proxy, the command line of the launcher, the arguments of bipbip (Proxy) | text lemmas on the search of the pattern and the split of fields; refutations for all messages |
| C81 | the reader of the configuration file and the conversion of values (Config) | text lemmas (strip, cut, split), induction over the lines; refutations for all values |
| C82 | oarnodesetting on the tables of resources: properties, states, maintenance, additions, waits (NodeSetting, NodeSettingSpec) | induction over the properties and the selected resources with unique identifiers; refutations for all tables |
| C83 | oarqueue on the table of queues and its effect on the groups of the meta-scheduler (OarQueue, OarQueueSpec) | each operation against its meaning on a map of names, induction over histories; refutations for all tables |
| C84 | oarproperty on the columns and values of the resources, the logs and the requests, with the two transactions of PostgreSQL (OarProperty, OarPropertySpec) | induction over the names of each block; invariants for all arguments; refutations for all tables |
| C85 | the regular expressions of scan_script as a table tried in order on the texts of the lines, the constructor of JobParameters and the arguments of oarsub (Script, ScriptSpec) | induction over the lines with the values of the directives as invariant; a decided table check that no earlier expression catches an option of the manual; refutations for all values |
| C86 | job_key_management, the loop of add_micheline_jobs and the accesses through oardodo as a function of the environment, the rights and ssh-keygen (Keys, KeysSpec) | induction over the commands with the user of the environment as invariant; non-interference with the files of the others; refutations for all files |
| C87 | the regular expressions of --notify as functions on texts, notify_user, set_job_state with its notification, the loop of NodeChangeState with the notification of deletions (Notify, NotifySpec) | uniqueness of the colon for all documented requests; induction over the text for the commands; invariant over all the sequences of runs for the refutation |
| C88 | submit of the API router, the named arguments, the constructor of JobParameters (from C85) and check_parameters (ApiSubmit, ApiSubmitSpec) | case analysis over the keys for all values; comparison with the model of oarsub; non-interference for the ignored keys |
| C89 | proxy of the API router, the rules and their names, urlparse, the cleaner, the lock and the file (ApiProxy, ApiProxySpec) | induction over the rules and the requests; invariant over the interleavings of threads, processes and crashes; crash points of the save |
| C90 | the file router of the API with its escape of names, on a file system by names (Media, MediaSpec) | injectivity of the escape by induction; case analysis of each request for all file systems |
| C91 | resource router of the API over one shared transactional session, with the other programs of the database (ApiSession, ApiSessionSpec) | case analysis of each request for all states; induction over the sequence of requests for the failed session |
| C92 | arguments, selection, fields, durations, exit status and request text of oarstat (Oarstat, OarstatSpec) | induction over arguments, fields and groups; sorted permutations for the request; reading back of the text of a duration; precedence of AND and OR |
| C93 | numbers (with binary rounding), keys, periods and calendar of the file of the quotas (QuotasFile, QuotasFileSpec) | rounding error and exactness of 53-bit floats in integer arithmetic; parsing of rendered texts; entries cover exactly the seconds of a period; tiling theorem of C18 |
| C94 | selection, tables, states, summary and events of oarnodes (Oarnodes, OarnodesSpec) | filters and counts over all databases; sorted permutations for the events |
| C95 | whole rounds of meta_schedule, composed of the models of C01-C36, on the tables kept between rounds (Round, RoundTimeline, RoundSpec) | invariant over histories; within a round, invariant linking timelines, Gantt and assigned resources |
| C96 | the same rounds, with the request answered by each placement carried through the Gantt to the assigned resources (RoundSpec `Answers`, RoundRequest) | composition of the shape theorems (C05-C07), the numbering (C30, C59), the timelines and the launching |
| C97 | the same rounds: the room left by the running jobs and the jobs before a waiting job stays free on the timeline until its turn (RoundSpec `Readable`, `Counts`, `NotOn`, `HeldUsable`, RoundLive) | invariant `Roomy` carried through the jobs of a group and through the groups, with the optimality of one assignment (C04) and the completeness of the search (C05) |
| C98 | the same rounds: none of the partial operations fails (RoundSpec `Legible`, `Tame`, SchedTotal, RoundTotal) | every search meets its fuel and its slots, by the invariant of the timeline (C01, C02) carried through the groups |
| C99 | two and then n consecutive rounds, the database between them only losing running jobs (RoundSpec `Calm`, `HeadRound`, RoundPromise) | the machines promised stay free (C95), so the earliest-date theorem (C97) bounds the new prediction; the time left decreases at each round |
| C100 | oarwalltime, get_conf, get, the texts of request on top of C21 (WalltimeCli) | the regular expression by the fields between the colons; the rest by cases on top of request_authorised and request_bounded |
| C101 | job_key_management step by step, its two temporary files by process, interleavings and crashes (KeyRace) | invariant of the files by the step of the submission which is inside; symbolic runs for the violations |
| C102 | a round in external mode: call_external_scheduler, the process of kamelot, return codes, signals before and after the commit, stop_queue (RoundExt) | invariant of the Gantt from queue to queue (the plan read back from the tables), launch half as C95; the stopped queues by induction on the queues |
| C103 | the end of meta_schedule: jobs to resume, predictions, failed jobs, accepted reservations, jobs to launch, exceptions (EndRound) | invariant of each loop for all prefixes of the execution; exact state after all the loops; condition of completion by equivalence per job |
| C104 | routing and handlers of the deletions, signals, checkpoints, resumptions and holds of the API, on the commands of Cli (ApiJobs) | case analysis of the routes for all paths; what each operation adds is bounded by the jobs asked and allowed; exact effects from the theorems of C78 |
| C105 | text of the remote command that signals a job, its callers in oardel, a fragment of the shell (Signal, Shell) | reading of the text by induction with an invariant of the lexer; composition with a prefix of tokens; chains of && by induction on the commands |
| C106 | answers of the remote commands, start of oarexec, values of the cpusets, composed with the launch of C68 (Remote) | the regular expression as an equivalence on the lines; invariant of the dictionary; composition with oarexec_nodes_ok |
| C107 | log_job, set_job_state, the launching and the queries on the rows CURRENT (Archive) | one invariant of all histories linking each row to its job; lemmas for each transaction; crash points by stopping between two transactions |
| C108 | the model of the timeline (Slot), insertions and searches | an invariant of the content of the timeline at each date, for all sequences of insertions (SharingProps) |
| C109 | the construction and the cutting of the timeline with a calendar (Slot, Calendar, Scheduling) | induction on the cuts, with an invariant on the state of the calendar and the content of the timeline at each date (TemporalProps) |
| C110 | the texts sent by the server and the loop of oarsub that reads them (Interactive) | induction on the sequence of messages; the decisive ones are characterised (InteractiveProps) |
| C111 | the text given to the local shell and the conditions of the connection (Connect); the languages of the two shells (ShellQuotes, Shell) are a separate specification | the readings of the pieces of the text compose; induction on the words and on the variables (ConnectProps, ConnectMain) |
| C112 | the two queries as groups of rows in any order the database may give, the dictionaries, the figures printed and the expression of the period (AcctReport), on the accounting of C19, C20 | the total of the rows of a period is a sum over the jobs accounted: induction on the windows, the rows and the history (AcctReportLemmas, AcctReportGroups, AcctReportProps, AcctReportMain) |
| C113 | deliveries, renewals, expiration, the file of revocations and its reading at the start of the API (Tokens), on the authentication of C44 | invariants of the histories: owner, age, and origin of the tokens issued since the revocation (TokensProps) |
| C114 | list and view of jobs with details, the five queries and their grouping, the types (Details) | rows of a job within those of a page, runs of sorted rows, dictionaries key by key (DetailsProps, DetailsMain, DetailsRoutes), against a separate description (DetailsSpec) |
| C115 | the address of the database built from the configuration and its reading by SQLAlchemy (Database) | the parameters by the last entry that matches, the parts of the address by maximal runs of characters (DatabaseProps), against a separate description of the account (DatabaseSpec) |
| C116 | the dates of the last jobs along a history of launchings, ends, rounds and changes of the nodes (EnergyHistory, over Energy) | invariant on the tables of the round and on the dates, by induction on the history (EnergyHistoryProps) |
| C117 | the queries of the routes that answer pages, each executed on the tables of its moment (Pages, over Api) | the rank of a row among the identifiers: it cannot jump over a page when rows only enter, nor come back when rows only leave (PagesProps) |
| C118 | the queries of a cycle of Greta, the events and the texts of its commands (GretaAsk, over Greta, Energy and ShellQuotes) | membership in the queries, then the theorem of C37 on cycles; reading of the text by the fragment of the shell of C111 (GretaAskProps) |
| C119 | the messages of submissions and of rounds, their corrections by regular expressions, the karma read in them (Messages) | splitting of the joined fields; induction over the histories of rounds; induction over the texts for re.sub and for the greedy regular expression (MessagesProps, MessagesMore) |
| C120 | the two commits that replace the plan shown, over histories of interrupted rounds (Visu), with the queries of Api | induction over the rounds; the three queries of the lists of jobs (VisuProps) |
| C121 | process_walltime_change_requests on the whole database with its queries, the order of the rows left to the server (WalltimeRound) | invariant of the grouping of the rows; induction over the jobs considered, with the databases in between (WalltimeRoundProps, WalltimeRoundMain, WalltimeRoundMore) |
| C122 | the command oaraccounting as a list of statements with the commits, what is saved and what the session sees (AcctCrash) | induction over the statements; the complete run refines the pass of C20 (AcctCrashProps) |
| C123 | the loop of oarremoveresource over remove_resource, with the exit status and the kills (RemoveCmd) | the tables after a list of removals in closed form, by induction on the list (RemoveCmdProps) |
| C124 | oarstat --properties: the query, the dictionary and the lines (StatProps) | the dictionary in closed form by induction on the jobs named (StatPropsProps) |
| C125 | the reservations of a queue, from the timeline to the tables (Round, Reservation) | induction on the list: what is left after each answer, as a relation on timelines; then the tables (RoundResv); the rounds that follow (RoundNext) |
| C126 | GET /resources/busy, GET /stress_factor, oarnotify (Load) | sets of resources without repetition; induction on the lines of the script (LoadProps) |
| C127 | get_expired_resources and the end of Sarko.run (Desktop, over Resources) | each row after the sweep from the histories of Resources; induction on the resources that left (DesktopProps) |

C37 is covered by Energy (decisions of the meta-scheduler) and Greta* (keep-alive, timeouts).

## 4. Coverage by file

| file of /repo | modelled | left out |
|---|---|---|
| oar/kao/slot.py | `Slot`, `SlotSet` (splits, insertion, removal, traversals), `intersec_*` | `str`/debug; construction from a dict (its `last_id` is not the maximum) |
| oar/lib/hierarchy.py | all the functions | ProcSet internals |
| oar/kao/scheduling.py | slot search with and without quotas, moldable choice, cache, containers, dependencies | `assign`/`find` plug-ins |
| oar/kao/quotas.py | rules, counters, check, calendar (periodicals, one-shot) | loading of the JSON file: see below |
| oar/kao/kamelot.py, karma.py, multifactor_priority.py | sorting, cap | custom sorting plug-in; floats are rationals |
| oar/kao/kamelot_fifo.py | the whole round, from the rows read to the decisions | reading and writing of the tables |
| oar/kao/kamelot_basic.py, scheduling_basic.py | the search, the assignment, the loop over the jobs | reading and writing of the tables |
| oar/tools/oar_phoenix.py | choice of the nodes, status, runs, interrupted runs, choice of the status file | text of the commands, logs, YAML |
| oar/cli/oardel.py, oarhold.py, oarresume.py, utils.py | the selection, the loops, the exit status, the notifications | texts of the messages; `oardel -b` |
| oar/lib/resource_handling.py: update_current_scheduler_priority | levels, coefficients, guards, events | changes of properties and assignments during the life of a job |
| oar/modules/appendice_proxy.py; bipbip_commander.py: bipbip_leon_executor | the whole | sockets; the shell beyond plain words |
| oar/lib/configuration.py; utils.py: try_convert_decimal | load_file, setdefault_config, constructor | errors of the file system; get_namespace, database URI |
| oar/cli/oarnodesetting.py | the command but its read-only options | texts of the messages; --last-property-value; changes by others during the waits |
| oar/cli/oarqueue.py | the command | texts of the messages, limits of length of the columns |
| oar/lib/queue.py | all functions | |
| oar/cli/oarproperty.py | the command but --version | texts of the messages, other databases than PostgreSQL, truncation of long identifiers |
| oar/lib/submission.py: scan_script, JobParameters.__init__, read_array_param_file; oar/cli/oarsub.py: arguments of JobParameters | the directives, the precedence, the arrays | defaults of the configuration, decoding errors, non-ASCII digits |
| oar/lib/submission.py: job_key_management, add_micheline_jobs (keys); oar/tools/oardodo.c.in: choice of the user | the results, the accesses, the jobs created | the temporary files, errors of the insertion of jobs, the second reading of the file of parameters |
| oar/lib/tools.py: notify_user; oar/lib/submission.py: checks of notify; set_job_state and node_change_state: notifications | the texts, what is sent, the steps not done after an exception | texts with line breaks, the content of the mails, partial effects when another event raises |
| oar/api/routers/job.py: submit; oar/lib/submission.py: check_parameters | the parameters of the jobs, the commands, the answers | the validation of the body by pydantic, the initial request, the message of an error |
| oar/api/routers/proxy.py, oar/api/proxy_utils.py, oar/cli/oarproxycleaner.py | the request, the rules, the escape of their names, the lock per process, the atomic replacement, one round of the cleaner | the TOML syntax, characters above 127 in the base, IPv6 addresses, the sleep of the cleaner; the routing of Traefik is a specification |
| oar/api/routers/media.py | the five requests, their commands, answers and effects | links, `..`, the shell of an upload with special characters (never reached), partial failure of rm |
| oar/api/routers/resource.py, app.py session | show, create, state, delete, list limit; the shared session with commit, row locks and failed transaction | two requests interleaved within one handler; SQLite |
| oar/cli/oarstat.py | -u, -j, -a, -s, -e, -g, --sql, fields, durations, exit status, request | tables, JSON and YAML, properties, accounting |
| oar/kao/quotas.py | loading of the file: numbers, keys, periods, one-shot periods, default entry | JSON syntax, exponents in floats, parsing of dates, Calendar.show |
| oar/cli/oarnodes.py | options, selection, tables, states, summary, events, exit status | drawing, JSON and YAML texts, natural order of names, arguments of -e (same as oarstat -u) |
| oar/kao/meta_sched.py (meta_schedule, internal mode) | order of the steps, what each reads and writes | walltime changes, plug-ins, messages, energy saving, external schedulers, concurrent programs |
| oar/cli/oarwalltime.py, oar/lib/walltime.py (get_conf, get, texts) | command, settings, exit status (WalltimeCli) | texts displayed; `eval` is an input; floats are exact rationals |
| oar/lib/submission.py job_key_management (concurrency) | the steps on the shared temporary files (KeyRace) | keys given in a file; partial writes |
| oar/kao/meta_sched.py call_external_scheduler, oar/kao/kamelot.py main, schedule_cycle | the process of each queue, its tables and return code (RoundExt) | schedulers other than kamelot, plug-ins, reservations accepted |
| oar/kao/meta_sched.py 1133-1334, notify_to_run_job, oar/lib/tools.py notify_tcp_socket, oar/lib/job_handling.py get_jobs_on_resuming_job_resources, get_gantt_waiting_interactive_prediction_date, resume_job_action | the loops of the end of the round, their messages, events and exceptions (EndRound) | the texts, WITH_OAR2 |
| oar/api/routers/job.py 436-540 | the routes, their order, the token, the call of the commands, the exception of a numeric signal (ApiJobs) | texts of the answers, 405 and 307 answers |
| oar/lib/tools.py 376-428, oar/cli/oardel.py 75-126 | the text given to ssh and the host (Signal); the shell that reads it is specified in Shell | ssh, time-outs |
| oar/lib/tools.py 486-618, oar/lib/job_handling.py 1416-1453 | the reading of the answers, the hosts written, the grouping of the cpusets (Remote) | taktuk, ssh, perl |
| oar/lib/job_handling.py 721-742, 774-782, 812-828, 1495-1503, 1590-1606, 1646-1814, 2661-2672, oar/lib/node.py 340-352, oar/lib/resource_handling.py 253-262, oar/modules/finaud.py 39-55 | the rows, their index and the queries (Archive) | the other tables written by set_job_state (modelled in Jobs, Notify, Priority) |
| oar/kao/slot.py 151-189, 598-615 | sharing of a resource (SharingSpec, SharingProps, on the model Slot) | plug-ins |
| oar/kao/slot.py 253-264, 691-727; oar/kao/scheduling.py 164-184 | rules of the calendar in the timeline (TemporalSpec, TemporalProps, on the models Slot and Scheduling) | changes of the legal time |
| oar/cli/oarsub.py 687-733; oar/lib/tools.py 202-222; oar/kao/meta_sched.py 1244-1300 | messages to the client of a submission (Interactive) | sockets, keyboard interruption, messages split by the network |
| oar/cli/oarsub.py 55-252; oar/lib/tools.py 906-978; oar/cli/oarconnect.py | connection to a job (Connect) | X11 forwarding; job_env, which nothing sets; ssh and the execution of the script of the user |
| oar/lib/accounting.py 20-106; oar/cli/oarstat.py 184-213, 334-435 | accounting report (AcctReport) | SQL quoting of the user; rendering of dates and durations; last karma; sqlite (not supported by the code) |
| oar/api/auth.py 15-88; oar/lib/access_token.py; oar/api/app.py 65-77; oar/api/routers/frontend.py 52-87; oar/cli/oarsub.py 47-52, 518-520 | life of the tokens (Tokens) | signature of the tokens (trusted); basic authentication |
| oar/api/routers/job.py 30-171; oar/lib/basequery.py 216-315, 335-357; oar/lib/job_handling.py 1609-1621 | what the API tells about jobs (Details) | pages and filters: see C57, C58; NULL properties of groups |
| oar/lib/configuration.py 188-210, 217-256; oar/lib/database.py 105-111 | the access to the database (Database) | the options of the pools; the regular expression of SQLAlchemy 2.0 is trusted to be as modelled |
| oar/lib/job_handling.py 1183-1205, 1252-1290; oar/kao/meta_sched.py 107-131, 231-255 | dates of the last jobs (EnergyHistory) | one event per change of the database |
| oar/lib/basequery.py 199-214, 359-376, 393-402; oar/api/routers/resource.py 30-62, 87-104; oar/api/routers/job.py 208-230 | lists read page by page (Pages) | one query per request; columns loaded left out |
| oar/lib/node.py 134-196; oar/lib/event.py 27-47; oar/modules/greta.py 549-562, 577-614 | queries, events and commands of Greta (GretaAsk) | the queries of a cycle at the same moment; properties in SQL as predicates; `echo` without backslashes |
| oar/lib/tools.py 826-862; oar/lib/job_handling.py 600-679, 1157-1164, 1252-1290; oar/kao/meta_sched.py 133-138, 323-343, 575-602; oar/lib/accounting.py 332-349; oar/cli/oarstat.py 423-429 | messages of the jobs (Messages) | karmas as texts; ASCII digits and blanks; LIKE distinguishes the cases |
| oar/kao/meta_sched.py 611-629 | update_gantt_visualization (Visu) | a commit is atomic; the plans written by the rounds are arbitrary |
| oar/kao/walltime_change.py 18-151, oar/lib/job_handling.py 2706-2871, 1482-1492 | process_walltime_change_requests, get_jobs_with_walltime_change, get_possible_job_end_time_in_interval, get_running_job, change_walltime (WalltimeRound) | settings resolved for a queue; types written without spaces; an unquoted name is not the name of a column |
| oar/cli/oaraccounting.py 20-68, oar/lib/accounting.py 109-329, oar/lib/models.py 57-68 | cli, check_accounting_update with its commits, delete_all_from_accounting, delete_accounting_windows_before (AcctCrash) | the messages printed |
| oar/cli/oarremoveresource.py 12-38, oar/lib/job_handling.py 721-741 | cli, get_current_jobs_dependencies (RemoveCmd) | the tables of the job that the model does not have (types, challenges, state logs) remain in the database |
| oar/cli/oarstat.py 478-528, 697-719, oar/lib/job_handling.py 2675-2685, 1456-1462 | print_properties, get_job_resources_properties, get_array_job_ids (StatProps) | JSON and YAML as the dictionary; the order of rows with equal keys |
| oar/lib/resource_handling.py 515-526, oar/api/routers/resource.py 73-75, oar/api/routers/stress_factor.py 41-65, oar/cli/oarnotify.py 13-32 | get_count_busy_resources, busy, index, oarnotify (Load) | the script and oardodo; the decoding of the bytes |
| oar/lib/resource_handling.py 275-292, oar/modules/sarko.py 203-237 | get_expired_resources, Sarko.run (Desktop) | the text of the report |
| oar/kao/meta_sched.py | Gantt initialisation (waiting/AR), reservations, launching, best-effort killing, energy saving decisions | messages, external scheduler processes, suspension hooks |
| oar/kao/walltime_change.py, oar/lib/walltime.py | requests and processing | texts of messages |
| oar/lib/accounting.py | windows and update of the tables | SQL transactions |
| oar/lib/job_handling.py | states and logs, frag/hold/resume/checkpoint, suspension, types, data of jobs, Gantt tables, resubmission, end of job | challenges and keys beyond `sameKeys`, messages, statistics; `extract_scheduled_jobs` also writes `start_time` on the ORM objects (not modelled) |
| oar/lib/node.py, resource_handling.py, resource.py, event.py | state changes, logs, timeouts, numbering, energy queries, events | property edition by raw SQL |
| oar/lib/submission.py | parsing, estimation, insertion of jobs and arrays, parameter files, quotas type | script scanning, job keys |
| etc/oar/admission_rules.d | the 13 active rules | the rules switched off, rules stored in the database (an arbitrary function in C38, C39) |
| oar/lib/tools.py | durations, Perl serialisation, test of the nodes | process and socket helpers |
| oar/lib/basequery.py, oar/api/* | job filters, pagination, tokens | HTTP framework |
| oar/modules/almighty.py, bipbip.py, bipbip_commander.py, leon.py, sarko.py, node_change_state.py, finaud.py, greta.py | the loops as state machines | ssh, oarexec, ping, process pools (inputs) |

## 5. Disagreements between the code and the properties

Each is a theorem `..._violated` (a witness, or a statement for all inputs), next to what holds (`..._partial` or an exact characterisation).

* A slot ending exactly at the end of a job is not split: one second too many is reserved (C02), and a dependent job can begin one second before the end of its dependency (C10).
* Time-sharing: the intersection over slots restarts when it is empty, so resources busy at the beginning of the window can be given (C11).
* The groups of a request may share resources (C12); ALL/BEST inside a multi-level request finds nothing (C05/C06).
* A stale entry of the cache makes the scheduler skip resources added by a second container (C07); a missing container aborts the pass (C49).
* With a quotas calendar, the second alternative of a moldable job is written in stale slots (C03, C04); only the first type of a job is limited (C15); rules have dead ends (C17); the lookup in a calendar is right only at the beginning of a period (C18).
* Accounting marks running jobs as accounted (C20). Walltime: successive requests are not bounded (C21), a job beyond its walltime breaks conservation (C22), and the meta-scheduler's call raises (C50).
* The checkpoint request and the signal request record each other's event (C24); a job that ends during its deletion is not marked (C25); suspended jobs are killed early (C26).
* One more executor than allowed, commands of a job reordered (C27); starvation by unknown commands (C28).
* `set_node_state` raises or changes all resources (C48); alive resources declared dead (C51); logs (C52); an event that raises blocks the others (C54); swapped hold variants (C35).
* OR conditions are not parenthesised (C59); count of default resources (C30); tokens dates (C44); queries of the API (C57, C58).
* A user target in the fair-share raises (C60); types without value raise (C62); time-sharing test is never true (C42); only the last suspended job frees its resources (C43).
* Late reservations gain the security time (C33); resources removed from a reservation are the wrong ones (C36); Suspected or Dead resources at launch (C32).
* Arrays of moldable jobs, of reservations or of negative size (C39); interleaved submissions mix requests (C64); estimation on non default resources (C65); resubmission keeps old dates and adds a stray type (C66).
* Energy saving: rows counted instead of nodes (C37); reminders never removed, halts stuck for ever after a restart or a failure (C67).
* Admission rules: a group with OR, or unbalanced parentheses in the properties, escapes the conditions on drained, best-effort and deployment resources; `deploy=standby` escapes the rules on deployments; `noop` jobs refused; validated reservations not counted in the limit (C71–C73).
* FIFO scheduler: a running job makes every round raise; the resources of jobs being launched are given again; ALL and BEST drop the last resources; only the first group counts (C74).
* Basic scheduler: a job or an alternative that fits nowhere gets a date without resource; one group of two is enough; dependencies ignored; a job in a container aborts the round (C75).
* Phoenix: a node in two rows rebooted twice; maximum per kind and per run; zero means one; node still broken forgotten; interrupted run repeated; PHOENIX_STATUS_FILE makes the program read PHOENIX_DBFILE (C76).
* Test of the nodes: Sentinelle, generic and fping methods report nothing or raise; nmap with shared or unknown addresses; first host glued to the generic command; no method configured raises (C77).
* Commands: a refused job stops oarhold and oarresume before the server is told; `oardel -s` records a request of checkpoint; a job without host or unknown raises; the exit status changes at its second reading; any word in the API request holds the job (C78).
* Priorities: a job that regains the best-effort type, a timesharing job that loses it, or a type written with a value, has its contribution subtracted twice; an unknown job raises in `oardel -b` (C79).
* Notifications: messages grouped or cut by the transport are lost or act on another job; their text is given to a shell (C80).
* Configuration: quoted values are cut at a hash sign, lose a final quote, or become numbers (C81).
* oarnodesetting: jobs of the last host only, `id` not protected, maintenance not restored after a stop (C82).
* oarqueue: several operations, unknown queues, removal of a queue with waiting jobs (C83).
* oarproperty: types not compared, refused names with status 0, renamings not undone with the transaction (C84).
* Script directives: conditions replaced and joined without parentheses, directory ignored, unreadable files silently ignored (C85).
* Rights: files of parameters read as root, keys never exported (C86).
* Notifications: tags with blanks ignored, failing mail server blocks the treatment of the events (C87).
* API submission: reservation, workdir, resubmit and key files ignored (C88).
* API proxy: prefix of job 1 catches job 12, threads of one process lose rules, rules of ended jobs come back (C89).
* API files: names with a space designate another file, no upload succeeds, ls lists the directory of the server (C90).
* API resources: acknowledged creations and state changes are not committed, a negative limit blocks the API (C91).
* oarstat: groups with the same property are merged in the request shown; --sql with OR escapes the selection (C92).
* quota file: fractions of hours, ALL in periods, blanks in keys, empty rule sets and days through Sunday are not applied as written (C93).
* oarnodes: resources of jobs being launched are shown as free, -s as text hides standby, unknown nodes are no error (C94).
* rounds: a job that outlives its walltime, and delayed reservations, lose the exclusive use of their resources (C95).
* rounds: a job may be launched on a machine which is switched off, when the rows of two jobs are mixed in the answer of the database (C96).
* rounds: a job running on a machine that is no longer usable is counted on the first machine of the table (its ordered number is 0): a job that asks for free machines waits for the end of the other one (C97).
* rounds: a waiting job of walltime 0 or with a level that is not in the hierarchy, a malformed type of a running job or a best-effort job with a checkpoint to kill makes each round raise: no job at all is launched (C98). So do two groups of queues in which no waiting job can be placed: an insertion of an empty list adds a row of default values, the second one violates the primary key.
* rounds: the predicted date of a waiting job slips by one second when the job before it is started (a job of walltime w holds w seconds from its start in the plan and w + 1 once running), and a job which is not the first can be postponed when a running job ends early (C99).
* oarwalltime: with the default settings each request on a job outside the queue `default` raises; `*` as list of users raises (it is evaluated); the display raises for every started job (C100).
* job keys: the temporary file is named after the process and is not truncated: two simultaneous API requests mix their private keys, an interrupted submission spoils a later one (C101).
* external mode: with quotas every queue is stopped at the first round; reservations are never examined; best-effort jobs planned before another queue share its machines (C102).
* a lost oarsub client of an accepted reservation stops the end of every round; suspended jobs are never resumed (C103).
* a signal sent by the API is never delivered (TypeError, 500) and any unknown operation word holds the job (C104).
* the text of oardel -s is executed by the shell of the node with the account of OAR (C105).
* a time-out of a remote command reports no bad host; names with a colon are always bad (C106).
* an ended job keeps its nodes occupied after a crash before the archiving, or with sqlite; a crash while launching makes each later launching of the job raise (C107).
* timesharing=user,* never shares; a job that shares with nobody else is put with another; a placeholder inserted after its guest proposes the nodes of the guest again; two placeholders of the same name (C108).
* with a calendar the scheduler raises on most days of the week, and otherwise applies the rules of the next period, except on Mondays at midnight; a one-shot period shifts the periods that follow (C109).
* after the announces that an interactive job is refused or killed its client waits for ever (C110).
* the project of a submission reaches the shell of oar on the frontend when the user connects to the job: it can contain any command (C111).
* the accounting report counts whole UTC windows for days of the local time: in another time zone than UTC a day shows the consumption of another day (C112).
* a stolen API token can be renewed without end, and escapes a revocation when it is renewed between the date of the revocation and the restart of the API; a syntax error in the file of revocations cancels all of them (C113).
* `GET /jobs/{id}` raises for an unknown job (its test comes after the use of the job), `GET /jobs?details=false` gives the details, and of two token types only one is told (C114).
* The address of the database does not quote the account: a password with `@` sends its end as the name of the machine, `%XX` is decoded, and zeros before a password of digits are lost (C115).
* A crash between the two commits of the end of a job, or a node that comes back alive during a round, makes the energy saving halt a node just used or in use (C116).
* A list of the API read page by page misses rows when one of the previous pages leaves it, gives a row twice when an older job enters it, and the events of a job have no order at all (C117).
* Greta counts as idle the nodes whose job is Finishing, and its events name the node of the last command (C118).
* The rounds rewrite the messages without the walltime, the project and the types, so that the correction of the walltime of a late reservation never applies; negative karmas are not printed (C119).
* The plan shown is emptied by a commit of its own before it is filled: read or interrupted in between, the planned jobs disappear (C120).
* The metascheduler calls `process_walltime_change_requests` without two of its arguments: with WALLTIME_CHANGE_ENABLED=yes every round raises TypeError (C121). If it did not: all moldables are overwritten, force is lost at the first partial grant, timesharing=user,* makes the query invalid, containers are reduced under their inner jobs.
* `Accounting.create` commits: an interrupted `oaraccounting` counts a consumption twice, or flags every job as accounted and loses the consumption of the remaining ones (C122).
* `remove_resource` deletes the jobs that have used the resource even when they run: their other resources become free and their dependents start; the moldables remain (C123).
* oarstat -p: a job named twice is shown with each resource twice; jobs without resource are left out (C124).
* A reservation with several alternatives is examined for the first one only, and one inside a container is placed outside of it (C125).
* The API tells as idle the resources of jobs being launched or finishing; oarnotify trusts the variable USER (C126).
* A desktop computing machine that leaves is declared Dead, not Suspected, when it had been Alive for longer than DEAD_SWITCH_TIME (C127).
* Launch: a reservation started on a node that does not answer, or forgotten in Launching when none answers; failed prologue ignored and run twice; job started although it ended meanwhile; epilogue failure loses the events of the end (C68–C70).

## 6. Not modelled

The SQL engine and transactions (a module has the database to itself between two commits), ssh / oarexec / ping, plug-ins supplied by administrators,
the Batsim and simsim simulators, the text of most messages, the REST framework itself (routing, parsing of the requests; the handlers are modelled as listed in section 4), the rendering of the tables, the parsing of the
options by `click`, floating-point rounding except where section 4 says otherwise (rationals are used). Functions not listed in section 4 are not modelled.

## 7. Tests against wrong programs

`seeded/LOG.jsonl`: each line is an edit of a definition of the model in a scratch copy, the claim it breaks, the theorems which failed and those which were tightened.
