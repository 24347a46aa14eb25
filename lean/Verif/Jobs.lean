/-!
# Model of the tables of jobs and of the functions that change the state of a job

`oar/lib/job_handling.py`, `oar/lib/event.py`, `oar/modules/leon.py`, `oar/modules/sarko.py`.
A table is the list of its rows in insertion order. Notifications, logs, the karma/priority bookkeeping of
`update_current_scheduler_priority` and the index columns (`log_job`) are not modelled. Each function gets the
date read by `tools.get_date`.
-/

namespace Oar.Jobs

/-- The columns of the table `jobs` used here (oar/lib/models.py:368-406), with the walltime of the assigned moldable and
the keys of `get_job_types`. -/
structure JobRow where
  id : Nat
  user : String
  state : String
  jtype : String := "PASSIVE"
  reservation : String := "None"
  start : Int := 0
  stop : Int := 0
  suspended : Bool := false
  types : List String := []
  exitCode : Option Int := none
  assigned : Nat := 0
  walltime : Int := 0
  checkpoint : Int := 0
  resubmit : Nat := 0
  deriving DecidableEq, Repr

/-- A row of `job_state_logs` (oar/lib/models.py:325-332); `stop = 0` while the state lasts. -/
structure LogRow where
  jid : Nat
  state : String
  start : Int
  stop : Int
  deriving DecidableEq, Repr

/-- A row of `frag_jobs` (default state "LEON"). -/
structure FragRow where
  jid : Nat
  date : Int
  state : String
  deriving DecidableEq, Repr

/-- A row of `event_logs` with its host names. -/
structure Event where
  type : String
  jid : Nat
  toCheck : Bool
  hosts : List String
  deriving DecidableEq, Repr

/-- A row of `job_dependencies`. -/
structure DepRow where
  job : Nat
  required : Nat
  deriving DecidableEq, Repr

/-- The database. -/
structure DB where
  jobs : List JobRow
  log : List LogRow
  frags : List FragRow
  events : List Event
  deps : List DepRow
  deriving DecidableEq, Repr

/-- `get_job` (oar/lib/job_handling.py:1472-1479). -/
def DB.job? (db : DB) (jid : Nat) : Option JobRow := db.jobs.find? (fun j => j.id == jid)

/-- `UPDATE jobs SET ... WHERE job_id = jid`. -/
def DB.updJob (db : DB) (jid : Nat) (f : JobRow → JobRow) : DB :=
  { db with jobs := db.jobs.map (fun j => if j.id = jid then f j else j) }

/-- The list `states` of `set_job_state` (oar/lib/job_handling.py:1694-1705). -/
def aliveStates : List String :=
  ["toLaunch", "toError", "toAckReservation", "Launching", "Running", "Finishing", "Waiting", "Hold", "Suspended",
   "Resuming"]

/-- The condition of the `UPDATE` of `set_job_state` (oar/lib/job_handling.py:1706-1716). -/
def mayBecome (j : JobRow) (st : String) : Bool := decide (j.state ∈ aliveStates.erase st)

/-- The columns of the job written by `set_job_state` (oar/lib/job_handling.py:1715 and 1758-1762): the state and, when the
job ends, a stop date not before the start date. -/
def withState (st : String) (j : JobRow) : JobRow :=
  { j with state := st,
           stop := if (st = "Terminated" ∨ st = "Error") ∧ j.stop < j.start then j.start else j.stop }

/-- Close the open intervals of a job in the log (oar/lib/job_handling.py:1727-1729). -/
def closeLog (now : Int) (jid : Nat) (l : List LogRow) : List LogRow :=
  l.map (fun r => if r.stop = 0 ∧ r.jid = jid then { r with stop := now } else r)

/-- Models `set_job_state` (oar/lib/job_handling.py:1693-1814). -/
def setJobState (db : DB) (now : Int) (jid : Nat) (st : String) : DB :=
  match db.job? jid with
  | none => db
  | some j =>
    if mayBecome j st then
      { db.updJob jid (withState st) with log := closeLog now jid db.log ++ [⟨jid, st, now, 0⟩] }
    else db

/-- `add_new_event` (oar/lib/event.py:12-24): `to_check` is always "YES". -/
def addEvent (db : DB) (type : String) (jid : Nat) : DB := { db with events := db.events ++ [⟨type, jid, true, []⟩] }

/-- `add_new_event_with_host` (oar/lib/event.py:27-47); `to_check` has the default "YES" (oar/lib/models.py, EventLog). -/
def addEventHosts (db : DB) (type : String) (jid : Nat) (hosts : List String) : DB :=
  { db with events := db.events ++ [⟨type, jid, true, hosts.eraseDups⟩] }

/-- `is_an_event_exists` (oar/lib/event.py:50-57). -/
def eventExists (db : DB) (jid : Nat) (type : String) : Bool := db.events.any (fun e => e.jid == jid && e.type == type)

/-- `check_event` (oar/lib/event.py:93-100): marks all the events of this type and job. -/
def checkEvent (db : DB) (type : String) (jid : Nat) : DB :=
  { db with events := db.events.map (fun e => if e.jid = jid ∧ e.type = type ∧ e.toCheck then { e with toCheck := false } else e) }

/-- The users allowed to act on any job. -/
def isAdmin (user : String) : Bool := user == "oar" || user == "root"

/-- Models `frag_job` (oar/lib/job_handling.py:1506-1540) for the effective user: the answer and the database. -/
def fragJob (db : DB) (now : Int) (jid : Nat) (user : String) : Int × DB :=
  match db.job? jid with
  | none => (-3, db)
  | some j =>
    if user = j.user ∨ user = "oar" ∨ user = "root" then
      if db.frags.any (fun f => f.jid == jid) then (-2, db)
      else (0, addEvent { db with frags := db.frags ++ [⟨jid, now, "LEON"⟩] } "FRAG_JOB_REQUEST" jid)
    else (-1, db)

/-- Models `hold_job` (oar/lib/job_handling.py:1834-1893); `allowed` is the option `USERS_ALLOWED_HOLD_RESUME`. -/
def holdJob (db : DB) (allowed : Bool) (jid : Nat) (running : Bool) (user : String) : Int × DB :=
  match db.job? jid with
  | none => (-1, db)
  | some j =>
    if running = true ∧ allowed = false ∧ user ≠ "oar" ∧ user ≠ "root" then (-4, db)
    else if user = j.user ∨ user = "oar" ∨ user = "root" then
      if (j.state = "Waiting" ∨ j.state = "Resuming") ∨
          (running = true ∧ (j.state = "toLaunch" ∨ j.state = "Launching" ∨ j.state = "Running")) then
        (0, addEvent db (if running then "HOLD_RUNNING_JOB" else "HOLD_WAITING_JOB") jid)
      else (-3, db)
    else (-2, db)

/-- Models `resume_job` (oar/lib/job_handling.py:1896-1941). -/
def resumeJob (db : DB) (allowed : Bool) (jid : Nat) (user : String) : Int × DB :=
  match db.job? jid with
  | none => (-1, db)
  | some j =>
    if j.state = "Suspended" ∧ allowed = false ∧ user ≠ "oar" ∧ user ≠ "root" then (-4, db)
    else if user = j.user ∨ user = "oar" ∨ user = "root" then
      if j.state = "Hold" ∨ j.state = "Suspended" then (0, addEvent db "RESUME_JOB" jid)
      else (-3, db)
    else (-2, db)

/-- Models `ask_checkpoint_signal_job` (oar/lib/job_handling.py:1543-1587); `signal = none` is a checkpoint request. The two
events are exchanged in the code: a signal registers "CHECKPOINT", a checkpoint registers "SIGNAL_None". -/
def askCheckpoint (db : DB) (jid : Nat) (signal : Option String) (user : String) : Nat × DB :=
  match db.job? jid with
  | none => (1, db)
  | some j =>
    if j.jtype = "INTERACTIVE" then (3, db)
    else if user = j.user ∨ user = "oar" ∨ user = "root" then
      if j.state = "Running" then
        match signal with
        | some _ => (0, addEvent db "CHECKPOINT" jid)
        | none => (0, addEvent db "SIGNAL_None" jid)
      else (2, db)
    else (1, db)

/-- The four updates of the deletion state (oar/lib/job_handling.py:2054-2083). -/
def setFrag (db : DB) (jid : Nat) (st : String) : DB :=
  { db with frags := db.frags.map (fun f => if f.jid = jid then { f with state := st } else f) }

/-- `set_finish_date` (oar/lib/job_handling.py:2610-2619). -/
def setFinish (db : DB) (now : Int) (jid : Nat) : DB :=
  db.updJob jid (fun j => { j with stop := if now < j.start then j.start else now })

/-- The events registered at the end of `job_finishing_sequence` (oar/lib/job_handling.py:2374-2584): those given followed
by those due to the server epilogue, the cpuset cleaning and the pings, which depend on the outside world (`extra`). -/
def finishing (db : DB) (jid : Nat) (evs : List String) (extra : List (String × List String)) : DB :=
  extra.foldl (fun d e => addEventHosts d e.1 jid e.2) (evs.foldl (fun d e => addEvent d e jid) db)

/-- The ids of the jobs selected by `get_jobs_to_kill` (oar/lib/job_handling.py:2596-2607). -/
def toKill (db : DB) : List Nat :=
  (db.jobs.filter (fun j => db.frags.any (fun f => f.jid == j.id && f.state == "LEON") &&
    !(j.state == "Error" || j.state == "Terminated" || j.state == "Finishing"))).map JobRow.id

/-- The ids of the jobs selected by `get_to_exterminate_jobs`, `get_timer_armed_job`
(oar/lib/job_handling.py:2635-2658). -/
def withFrag (db : DB) (st : String) : List Nat :=
  (db.jobs.filter (fun j => db.frags.any (fun f => f.jid == j.id && f.state == st))).map JobRow.id

/-- The outside world seen by Leon and Sarko: whether a host can be contacted for a job, the events of the finishing
sequences, the result of the checkpoint signal. -/
structure World where
  head : Nat → Bool
  extra : Nat → List (String × List String)
  ckptOk : Nat → Bool

/-- The first part of one iteration of the loop over the jobs to kill (oar/modules/leon.py:102-158). -/
def leonAct (w : World) (now : Int) (db : DB) (j : JobRow) : DB :=
  if j.state = "Waiting" ∨ j.state = "Hold" then setJobState db now j.id "Error"
  else if j.state = "Terminated" ∨ j.state = "Error" ∨ j.state = "Finishing" then db
  else if "noop" ∈ j.types then
    finishing (setJobState (setFinish db now j.id) now j.id "Terminated") j.id [] (w.extra j.id)
  else if w.head j.id then addEvent db "SEND_KILL_JOB" j.id
  else db

/-- One iteration of the loop over the jobs to kill (oar/modules/leon.py:99-160); the state of the job is read when it is
treated. -/
def leonOne (w : World) (now : Int) (db : DB) (jid : Nat) : DB :=
  match db.job? jid with
  | none => db
  | some j => setFrag (leonAct w now db j) jid "TIMER_ARMED"

/-- One iteration of the loop over the jobs to exterminate (oar/modules/leon.py:162-174). -/
def exterminateOne (now : Int) (db : DB) (jid : Nat) : DB :=
  setFinish ((setJobState db now jid "Finishing").updJob jid (fun j => if j.start = 0 then { j with start := now } else j))
    now jid

/-- Models `Leon.run` without argument (oar/modules/leon.py:99-174). -/
def leonRun (w : World) (now : Int) (db : DB) : DB :=
  let db1 := (toKill db).foldl (leonOne w now) db
  (withFrag db1 "LEON_EXTERMINATE").foldl (exterminateOne now) db1

/-- The deletion state of a job, `get_job_frag_state` (oar/lib/job_handling.py:2587-2593). -/
def fragState (db : DB) (jid : Nat) : Option String := (db.frags.find? (fun f => f.jid == jid)).map FragRow.state

/-- Models `Leon.run` with a job id (oar/modules/leon.py:69-97), started by the launcher for each job to exterminate. -/
def leonExterminate (w : World) (db : DB) (jid : Nat) : DB :=
  if fragState db jid = some "LEON_EXTERMINATE" then
    finishing (setFrag db jid "TIMER_ARMED") jid ["EXTERMINATE_JOB"] (w.extra jid)
  else db

/-- The walltime of Leon actually used (oar/modules/sarko.py:55-69). -/
def leonWalltime (soft wall : Int) : Int := if wall ≤ soft then soft + 10 else wall

/-- One iteration of the loop over the timers (oar/modules/sarko.py:95-116). -/
def sarkoTimer (soft wall now : Int) (db : DB) (jid : Nat) : DB :=
  match db.job? jid, db.frags.find? (fun f => f.jid == jid) with
  | some j, some f =>
    if j.state = "Terminated" ∨ j.state = "Error" ∨ j.state = "Finishing" then setFrag db jid "FRAGGED"
    else if now > f.date + soft ∧ now ≤ f.date + leonWalltime soft wall then setFrag db jid "LEON"
    else if now > f.date + leonWalltime soft wall then setFrag db jid "LEON_EXTERMINATE"
    else db
  | _, _ => db

/-- The duration of one interval of the log (oar/lib/job_handling.py:408-417). -/
def resTime (now : Int) (r : LogRow) : Int :=
  let d := if r.stop = 0 then now - r.start else r.stop - r.start
  if d > 0 then d else 0

/-- Models `get_job_suspended_sum_duration` (oar/lib/job_handling.py:398-419). -/
def suspendedSum (db : DB) (jid : Nat) (now : Int) : Int :=
  ((db.log.filter (fun r => r.jid == jid && (r.state == "Suspended" || r.state == "Resuming"))).map (resTime now)).sum

/-- The time allowed to a running job by Sarko (oar/modules/sarko.py:122-125). -/
def maxTime (db : DB) (j : JobRow) (now : Int) : Int := if j.suspended then suspendedSum db j.id now else j.walltime

/-- One iteration of the loop over the running jobs (oar/modules/sarko.py:119-202). Sarko runs as user "oar". A missing host
name would raise for a checkpoint; it is taken as known. -/
def sarkoJob (w : World) (now : Int) (db : DB) (jid : Nat) : DB :=
  match db.job? jid with
  | none => db
  | some j =>
    if now > j.start + maxTime db j now then addEvent (fragJob db now jid "oar").2 "WALLTIME" jid
    else if j.checkpoint > 0 ∧ now ≥ j.start + maxTime db j now - j.checkpoint then
      addEvent (addEvent db "CHECKPOINT" jid) (if w.ckptOk jid then "CHECKPOINT_SUCCESSFULL" else "CHECKPOINT_ERROR") jid
    else db

/-- The ids of the running jobs (`get_jobs_in_state`, oar/lib/job_handling.py:1983-1985). -/
def runningIds (db : DB) : List Nat := (db.jobs.filter (fun j => j.state == "Running")).map JobRow.id

/-- Models the first two parts of `Sarko.run` (oar/modules/sarko.py:51-237); the part on resources is in another module. -/
def sarkoRun (w : World) (soft wall now : Int) (db : DB) : DB :=
  let db1 := (withFrag db "TIMER_ARMED").foldl (sarkoTimer soft wall now) db
  (runningIds db1).foldl (sarkoJob w now) db1

/-- The submission of a job (oar/lib/submission.py:1101-1119): the row of the job and its first interval. -/
def submit (db : DB) (now : Int) (j : JobRow) : DB :=
  { db with jobs := db.jobs ++ [j], log := db.log ++ [⟨j.id, j.state, now, 0⟩] }

/-- Models `suspend_job_action` (oar/lib/job_handling.py:2004-2015), resources put aside. -/
def suspendAction (db : DB) (now : Int) (jid : Nat) : DB :=
  (setJobState db now jid "Suspended").updJob jid (fun j => { j with suspended := true })

end Oar.Jobs
