import Verif.Jobs

/-!
# Model of the end of jobs, of their resubmission and of `oar/modules/node_change_state.py`
-/

namespace Oar.Jobs

/-- A fresh job id (autoincremented primary key). -/
def nextId (db : DB) : Nat := (db.jobs.map JobRow.id).foldl max 0 + 1

/-- Models `is_job_already_resubmitted` (oar/lib/job_handling.py:1128-1135). -/
def resubmitted (db : DB) (jid : Nat) : Bool := db.jobs.any (fun j => j.resubmit == jid)

/-- The row of the new job (oar/lib/job_handling.py:1019-1035 and 1107-1116): `start_time` is not reset, because the
reservation column is the string "None", never `None`. -/
def newJobRow (j : JobRow) (nid : Nat) : JobRow :=
  { j with id := nid, state := "Waiting", exitCode := none, assigned := 0, resubmit := j.id }

/-- Models `resubmit_job` (oar/lib/job_handling.py:978-1125): the code, the database and the id of the new job (0 in case of
failure). `keyClash`: another active job uses the same ssh keys. The copies of the descriptions and types are the columns
`walltime` and `types` of the row. -/
def resubmitJob (db : DB) (now : Int) (keyClash : Bool) (user : String) (jid : Nat) : Int × DB × Nat :=
  match db.job? jid with
  | none => (-5, db, 0)
  | some j =>
    if j.jtype ≠ "PASSIVE" then (-1, db, 0)
    else if j.state ≠ "Error" ∧ j.state ≠ "Terminated" ∧ j.state ≠ "Finishing" then (-2, db, 0)
    else if user ≠ j.user ∧ user ≠ "oar" ∧ user ≠ "root" then (-3, db, 0)
    else if keyClash then (-4, db, 0)
    else
      (0, { submit db now (newJobRow j (nextId db)) with
              deps := db.deps.map (fun d => if d.required = jid then { d with required := nextId db } else d) }, nextId db)

/-- The events of `check_end_of_job` for each exit value of oarexec (oar/lib/job_handling.py:2133-2359), without the
resubmission event. -/
def endEvents (error : Int) : List String :=
  if error = 0 then ["SWITCH_INTO_TERMINATE_STATE"]
  else if error = 1 then ["PROLOGUE_ERROR"]
  else if error = 2 then ["EPILOGUE_ERROR"]
  else if error = 3 then ["SWITCH_INTO_ERROR_STATE"]
  else if error = 5 then ["CANNOT_WRITE_NODE_FILE"]
  else if error = 6 then ["CANNOT_WRITE_PID_FILE"]
  else if error = 7 then ["USER_SHELL"]
  else if error = 8 then ["CANNOT_CREATE_TMP_DIRECTORY"]
  else if error = 10 then ["SWITCH_INTO_ERROR_STATE", "WORKING_DIRECTOR"]
  else if error = 20 then ["SWITCH_INTO_ERROR_STATE", "OUTPUT_FILES"]
  else if error = 12 then ["SWITCH_INTO_ERROR_STATE", "WORKING_DIRECTORY", "EPILOGUE_ERROR"]
  else if error = 22 then ["SWITCH_INTO_ERROR_STATE", "OUTPUT_FILES", "EPILOGUE_ERROR"]
  else if error = 30 then ["SSH_TRANSFER_TIMEOUT"]
  else if error = 31 then ["BAD_HASHTABLE_DUMP"]
  else if error = 33 then ["SWITCH_INTO_TERMINATE_STATE", "EPILOGUE_ERROR"]
  else if error = 34 then ["SWITCH_INTO_TERMINATE_STATE"]
  else if error = 50 then ["LAUNCHING_OAREXEC_TIMEOUT"]
  else if error = 40 then ["SWITCH_INTO_TERMINATE_STATE"]
  else if error = 42 then ["SWITCH_INTO_TERMINATE_STATE"]
  else if error = 41 then ["SWITCH_INTO_TERMINATE_STATE", "EPILOGUE_ERROR"]
  else ["EXIT_VALUE_OAREXEC"]

/-- The resubmission of a best-effort job killed for another one (oar/lib/job_handling.py:2151-2173), and the events. -/
def endResubmit (db : DB) (now : Int) (keyClash : Bool) (j : JobRow) (error : Int) : DB × List String :=
  if error = 3 ∧ "besteffort" ∈ j.types ∧ "idempotent" ∈ j.types ∧ eventExists db j.id "BESTEFFORT_KILL" = true then
    ((resubmitJob db now keyClash "oar" j.id).2.1, endEvents error ++ ["RESUBMIT_JOB_AUTOMATICALLY"])
  else (db, endEvents error)

/-- Models `check_end_of_job` (oar/lib/job_handling.py:2100-2371); `exit` is the exit value of the script when it is a
non-empty integer string. -/
def checkEnd (db : DB) (now : Int) (keyClash : Bool) (extra : List (String × List String)) (jid : Nat) (exit : Option Int)
    (error : Int) : DB :=
  match db.job? jid with
  | none => db
  | some j =>
    if j.state = "Running" ∨ j.state = "Launching" ∨ j.state = "Suspended" ∨ j.state = "Resuming" then
      let db1 := setJobState (setFinish db now jid) now jid "Finishing"
      let db2 := match exit with
        | some c => db1.updJob jid (fun j => { j with exitCode := some c })
        | none => db1
      let r := endResubmit db2 now keyClash j error
      finishing r.1 jid r.2 extra
    else db

/-- The result of the suspension commands (oar/modules/node_change_state.py, `suspend_job`). -/
inductive Suspend
  | noCpuset | noNodes | badFile | done | scriptError | badNodes (hosts : List String)
  deriving DecidableEq, Repr

/-- What the processing of the events reads outside of the tables: the date, the hosts of a moldable job, whether the cpuset
feature is configured, the results of the suspensions, the ssh key test. -/
structure Env where
  now : Int
  hostLog : Nat → List String
  cpuset : Bool
  suspend : Suspend
  keyClash : Bool

/-- The events that put the job in Error (oar/modules/node_change_state.py:109-123). -/
def errorTypes : List String :=
  ["PING_CHECKER_NODE_SUSPECTED", "CPUSET_ERROR", "PROLOGUE_ERROR", "CANNOT_WRITE_NODE_FILE", "CANNOT_WRITE_PID_FILE",
   "USER_SHELL", "EXTERMINATE_JOB", "CANNOT_CREATE_TMP_DIRECTORY", "LAUNCHING_OAREXEC_TIMEOUT", "RESERVATION_NO_NODE",
   "BAD_HASHTABLE_DUMP", "SSH_TRANSFER_TIMEOUT", "EXIT_VALUE_OAREXEC"]

/-- The events that suspect nodes (oar/modules/node_change_state.py:146-165). -/
def suspectTypes : List String :=
  ["PING_CHECKER_NODE_SUSPECTED", "PING_CHECKER_NODE_SUSPECTED_END_JOB", "CPUSET_ERROR", "CPUSET_CLEAN_ERROR",
   "SUSPEND_ERROR", "RESUME_ERROR", "PROLOGUE_ERROR", "EPILOGUE_ERROR", "CANNOT_WRITE_NODE_FILE", "CANNOT_WRITE_PID_FILE",
   "USER_SHELL", "EXTERMINATE_JOB", "CANNOT_CREATE_TMP_DIRECTORY", "SSH_TRANSFER_TIMEOUT", "BAD_HASHTABLE_DUMP",
   "LAUNCHING_OAREXEC_TIMEOUT", "EXIT_VALUE_OAREXEC", "FORCE_TERMINATE_FINISHING_JOB"]

/-- `type_to_check_cpuset_SR_error` (oar/modules/node_change_state.py:166-171). -/
def srTypes : List String := ["CPUSET_ERROR", "CPUSET_CLEAN_ERROR", "SUSPEND_ERROR", "RESUME_ERROR"]

/-- `type_to_check_cpuset_LT_error` (oar/modules/node_change_state.py:172-179). -/
def ltTypes : List String :=
  ["EXTERMINATE_JOB", "PROLOGUE_ERROR", "EPILOGUE_ERROR", "CPUSET_ERROR", "CPUSET_CLEAN_ERROR",
   "FORCE_TERMINATE_FINISHING_JOB"]

/-- The events that stop the queues (oar/modules/node_change_state.py:232-237). -/
def stopTypes : List String :=
  ["SERVER_PROLOGUE_TIMEOUT", "SERVER_PROLOGUE_EXIT_CODE_ERROR", "SERVER_EPILOGUE_TIMEOUT", "SERVER_EPILOGUE_EXIT_CODE_ERROR"]

/-- The events after which the job is resubmitted (oar/modules/node_change_state.py:255-267). -/
def resubmitTypes : List String :=
  ["SERVER_PROLOGUE_TIMEOUT", "SERVER_PROLOGUE_EXIT_CODE_ERROR", "SERVER_EPILOGUE_TIMEOUT", "PING_CHECKER_NODE_SUSPECTED",
   "CPUSET_ERROR", "PROLOGUE_ERROR", "CANNOT_WRITE_NODE_FILE", "CANNOT_WRITE_PID_FILE", "USER_SHELL",
   "CANNOT_CREATE_TMP_DIRECTORY", "LAUNCHING_OAREXEC_TIMEOUT"]

/-- `job.exit_code and (job.exit_code >> 8) == 99` (oar/modules/node_change_state.py:82-83). -/
def exit99 (j : JobRow) : Bool :=
  match j.exitCode with
  | some c => decide (c ≠ 0) && decide (c / 256 = 99)
  | none => false

/-- The condition of the resubmission of an idempotent job (oar/modules/node_change_state.py:77-90). -/
def idempotent99 (db : DB) (ev : Event) (j : JobRow) : Bool :=
  (ev.type == "SWITCH_INTO_TERMINATE_STATE" || ev.type == "SWITCH_INTO_ERROR_STATE") &&
  exit99 j &&
  decide ("idempotent" ∈ j.types) && j.reservation == "None" && j.jtype == "PASSIVE" && !resubmitted db j.id &&
  !eventExists db j.id "SEND_KILL_JOB" && decide (j.stop - j.start > 60)

/-- First part of the treatment of an event: resubmission with exit code 99 (oar/modules/node_change_state.py:73-97). -/
def ncs1 (env : Env) (db : DB) (ev : Event) (j : JobRow) : DB :=
  if idempotent99 db ev j then (resubmitJob db env.now env.keyClash "oar" j.id).2.1 else db

/-- The state requested for the job (oar/modules/node_change_state.py:99-143). -/
def ncs2 (env : Env) (db : DB) (ev : Event) (j : JobRow) : DB :=
  let db := if ev.type = "SWITCH_INTO_TERMINATE_STATE" then setJobState db env.now j.id "Terminated"
    else if ev.type = "SWITCH_INTO_ERROR_STATE" ∨ ev.type = "FORCE_TERMINATE_FINISHING_JOB" then
      setJobState db env.now j.id "Error"
    else db
  let db := if ev.type ∈ errorTypes ∧ (j.reservation = "None" ∨ ev.type = "RESERVATION_NO_NODE" ∨ j.assigned = 0 ∨
      (ev.type ≠ "PING_CHECKER_NODE_SUSPECTED" ∧ ev.type ≠ "CPUSET_ERROR")) then setJobState db env.now j.id "Error"
    else db
  if ev.type = "CPUSET_CLEAN_ERROR" ∨ ev.type = "EPILOGUE_ERROR" then setJobState db env.now j.id "Terminated" else db

/-- The hosts to suspect, with the finaud tag, and whether the event LOG_SUSPECTED is registered; `none`: `hosts[0]` of an
empty list (oar/modules/node_change_state.py:181-211). -/
def suspectHosts (env : Env) (ev : Event) (j : JobRow) : Option (List String × Bool × Bool) :=
  if ev.type ∈ suspectTypes then
    if ev.type = "PING_CHECKER_NODE_SUSPECTED" ∨ ev.type = "PING_CHECKER_NODE_SUSPECTED_END_JOB" then
      some (ev.hosts, true, false)
    else if ev.type ∈ srTypes then some (ev.hosts, false, false)
    else if ev.type ∈ ltTypes then
      some (if env.cpuset ∧ ev.type = "EXTERMINATE_JOB" then [] else env.hostLog j.assigned, false, true)
    else
      match env.hostLog j.assigned with
      | [] => none
      | h :: _ => some ([h], false, true)
  else some ([], false, false)

/-- The stop of the queues and the resubmission (oar/modules/node_change_state.py:231-285); the queues themselves are not
modelled. -/
def ncs3 (env : Env) (db : DB) (ev : Event) (j : JobRow) : DB :=
  let db := if ev.type ∈ stopTypes then setJobState db env.now j.id "Error" else db
  if ev.type ∈ resubmitTypes ∧ j.reservation = "None" ∧ j.jtype = "PASSIVE" ∧ resubmitted db j.id = false then
    addEvent (resubmitJob db env.now env.keyClash "oar" j.id).2.1 "RESUBMIT_JOB_AUTOMATICALLY" j.id
  else db

/-- Models `suspend_job` (oar/modules/node_change_state.py:405-509). -/
def suspendJob (env : Env) (db : DB) (j : JobRow) : DB :=
  match env.suspend with
  | .noCpuset => db
  | .noNodes => db
  | .badFile => addEvent db "SUSPEND_RESUME_MANAGER_FILE" j.id
  | .done => suspendAction db env.now j.id
  | .scriptError =>
    setJobState (addEvent (suspendAction db env.now j.id) "SUSPEND_SCRIPT_ERROR" j.id) env.now j.id "Resuming"
  | .badNodes hosts => (fragJob (addEventHosts db "SUSPEND_ERROR" j.id hosts) env.now j.id "oar").2

/-- The hold and resume requests (oar/modules/node_change_state.py:287-317). `none`: the missing argument of
`suspend_job_action` for a noop job. -/
def ncs4 (env : Env) (db : DB) (ev : Event) (j : JobRow) : Option DB :=
  if ev.type = "HOLD_WAITING_JOB" ∨ ev.type = "HOLD_RUNNING_JOB" ∨ ev.type = "RESUME_JOB" then
    if ev.type ≠ "RESUME_JOB" ∧ j.state = "Waiting" then some (setJobState db env.now j.id "Hold")
    else if ev.type ≠ "RESUME_JOB" ∧ j.state = "Resuming" then some (setJobState db env.now j.id "Suspended")
    else if ev.type = "HOLD_WAITING_JOB" ∧ j.state = "Running" then
      if "noop" ∈ j.types then none else some (suspendJob env db j)
    else if ev.type = "RESUME_JOB" ∧ j.state = "Suspended" then some (setJobState db env.now j.id "Resuming")
    else if ev.type = "RESUME_JOB" ∧ j.state = "Hold" then some (setJobState db env.now j.id "Waiting")
    else some db
  else some db

/-- The types of events whose treatment reads the job (an absent job raises `AttributeError`). -/
def needsJob (ev : Event) : Bool :=
  decide (ev.type ∈ errorTypes ++ suspectTypes ++ resubmitTypes ++ ["SWITCH_INTO_TERMINATE_STATE", "SWITCH_INTO_ERROR_STATE",
    "HOLD_WAITING_JOB", "HOLD_RUNNING_JOB", "RESUME_JOB", "FRAG_JOB_REQUEST"])

/-- The treatment of one event (oar/modules/node_change_state.py:66-328): the database and the hosts to suspect with their
finaud tag. The row of the job is read once: none of the columns read later is changed by the previous parts for the same type of event. An event of an absent job that needs it raises (`none`); for the
other ones nothing happens. -/
def ncsEvent (env : Env) (db : DB) (ev : Event) : Option (DB × List (String × Bool)) :=
  match db.job? ev.jid with
  | none => if needsJob ev then none else some (checkEvent db ev.type ev.jid, [])
  | some j =>
    let db1 := ncs2 env (ncs1 env db ev j) ev j
    match suspectHosts env ev j with
    | none => none
    | some (hosts, finaud, logged) =>
      let db2 := if logged then addEventHosts db1 "LOG_SUSPECTED" 0 hosts else db1
      let db3 := ncs3 env db2 ev j
      match ncs4 env db3 ev j with
      | none => none
      | some db4 =>
        some (checkEvent db4 ev.type ev.jid, (hosts.eraseDups.filter (fun h => h != "")).map (fun h => (h, finaud)))

/-- The loop over the events to check (oar/modules/node_change_state.py:66-328); `none` when an exception stops the
module. -/
def ncsLoop (env : Env) : List Event → DB → Option (DB × List (String × Bool))
  | [], db => some (db, [])
  | ev :: evs, db =>
    match ncsEvent env db ev with
    | none => none
    | some (db', hs) =>
      match ncsLoop env evs db' with
      | none => none
      | some (db'', hs') => some (db'', hs ++ hs')

/-- `get_to_check_events` (oar/lib/event.py:82-90) then the loop. -/
def ncsEvents (env : Env) (db : DB) : Option (DB × List (String × Bool)) :=
  ncsLoop env (db.events.filter (fun e => e.toCheck)) db

end Oar.Jobs
