import Verif.Jobs
import Verif.Tools

/-!
# Model of the end of a round of the meta-scheduler: the jobs to resume and the answers to the users

`meta_schedule`, after the launching and the energy saving (oar/kao/meta_sched.py:1133-1332). Each change of the tables is committed at once, so that an exception keeps what was done before.
Not modelled: the logs; the texts of the messages; a database that gives the rows of the jobs in another order than the one of the table; a collation that ignores trailing spaces.
-/

namespace Oar.EndRound

open Oar.Jobs Oar.Tools

/-- The messages sent to `oarsub`. -/
inductive Msg
  | prediction
  | text
  | badJob
  | goodReservation
  deriving DecidableEq

/-- What the network does of a message: it is received, the connection is refused, or it is cut during the sending. -/
inductive Net
  | received
  | refused
  | cut
  deriving DecidableEq

/-- The outside during a round. `info`: the column `info_type` of a job; `script`: `JUST_BEFORE_RESUME_EXEC_FILE` (`none`: not configured), which gives its return code or `none` after the
time-out; `assigned`: the current rows of `assigned_resources` (moldable, resource); `planned`: the jobs with a date in the Gantt; `commander`: whether the message to the commander is
accepted; `treated`: `to_launch_jobs_already_treated`. -/
structure Env where
  now : Int
  user : String := "oar"
  info : Nat → Option (List Char)
  net : Nat → Msg → Net
  script : Option (Nat → Option Int) := none
  assigned : List (Nat × Nat) := []
  planned : List Nat := []
  commander : Nat → Bool := fun _ => true
  treated : List Nat := []

/-- The tables, the messages received by the users, the launchings asked to the commander, the exit code. -/
structure St where
  db : DB
  told : List (Nat × Msg)
  asked : List Nat
  code : Int
  deriving DecidableEq

/-- `addr, port = info_type.split(":")`; `none`: an exception. -/
def address (env : Env) (jid : Nat) : Option (List Char × List Char) :=
  match env.info jid with
  | none => none
  | some t => match split ':' t with
    | [a, p] => some (a, p)
    | _ => none

/-- Models `notify_tcp_socket` (oar/lib/tools.py:202-222), with the address of the job: whether something is sent; `none`: an exception, for a port that is not the number of a port, or when the
connection is cut after it was opened. -/
def tell (env : Env) (jid : Nat) (m : Msg) : Option Bool :=
  match address env jid with
  | none => none
  | some (_, p) => match pyInt p with
    | none => none
    | some n => if n < 0 ∨ 65535 < n then none else match env.net jid m with
      | .received => some true
      | .refused => some false
      | .cut => none

/-- Models `get_jobs_on_resuming_job_resources` (oar/lib/job_handling.py:1366-1394). There is no condition between the second job and the second assignment; one of the states ends with a
space. -/
def otherJobs (env : Env) (db : DB) (j1 : JobRow) : List Nat :=
  ((env.assigned.filter (fun a1 => a1.1 == j1.assigned)).flatMap (fun a1 => (env.assigned.filter (fun a2 => a2.2 == a1.2)).flatMap (fun _ =>
    (db.jobs.filter (fun j2 => j1.id != j2.id && ["toLaunch", "toError", "toAckReservation", "Launching", "Running ", "Finishing"].contains j2.state)).map (·.id)))).eraseDups

/-- A job to resume (oar/kao/meta_sched.py:1144-1223). `job.types` exists for the jobs with resources only; `resume_job_action` calls `set_job_state` without the session, and raises
(oar/lib/job_handling.py:1397-1400); with the script, `skip` is always set. -/
def resume (env : Env) (j : JobRow) (st : St) : St × Bool :=
  if otherJobs env st.db j ≠ [] then (st, true)
  else if env.assigned.all (fun a => a.1 != j.assigned) then (st, false)
  else if "noop" ∈ j.types then (st, false)
  else match env.script with
    | none => (st, false)
    | some f => match f j.id with
      | some rc =>
        if rc = 0 then (st, true)
        else ({ st with db := (fragJob (addEvent st.db "RESUME_SCRIPT_ERROR" j.id) env.now j.id env.user).2 }, true)
      | none => ({ st with db := (fragJob (addEvent (addEvent st.db "RESUME_SCRIPT_ERROR" j.id) "RESUME_SCRIPT_ERROR" j.id) env.now j.id env.user).2 }, true)

/-- A waiting interactive job with a date (oar/kao/meta_sched.py:1230-1264). -/
def predict (env : Env) (j : JobRow) (st : St) : St × Bool :=
  match tell env j.id .prediction with
  | none => (st, false)
  | some true => ({ st with told := st.told ++ [(j.id, .prediction)] }, true)
  | some false => ({ st with db := (fragJob (addEvent st.db "LOST_SESSION" j.id) env.now j.id env.user).2 }, true)

/-- The rows of `get_gantt_waiting_interactive_prediction_date` (oar/lib/job_handling.py:832-846). -/
def interactive (env : Env) (db : DB) : List JobRow :=
  db.jobs.filter (fun j => j.state == "Waiting" && j.jtype == "INTERACTIVE" && j.reservation == "None" && env.planned.contains j.id)

/-- Add the message when it is received. -/
def note (st : St) (jid : Nat) (m : Msg) (ok : Bool) : St := if ok then { st with told := st.told ++ [(jid, m)] } else st

/-- A job in error (oar/kao/meta_sched.py:1266-1287). -/
def fail (env : Env) (j : JobRow) (st : St) : St × Bool :=
  match address env j.id with
  | none => (st, false)
  | some _ =>
    if j.jtype = "INTERACTIVE" ∨ (j.jtype = "PASSIVE" ∧ j.reservation = "Scheduled") then
      match tell env j.id .text with
      | none => (st, false)
      | some b1 =>
        match tell env j.id .badJob with
        | none => (note st j.id .text b1, false)
        | some b2 =>
          let st2 := note (note st j.id .text b1) j.id .badJob b2
          ({ st2 with db := setJobState st2.db env.now j.id "Error" }, true)
    else ({ st with db := setJobState st.db env.now j.id "Error" }, true)

/-- An accepted reservation (oar/kao/meta_sched.py:1289-1325). When the user cannot be told, `add_new_event` is called without the session, and raises. -/
def ack (env : Env) (j : JobRow) (st : St) : St × Bool :=
  match tell env j.id .goodReservation with
  | none => (st, false)
  | some false => (st, false)
  | some true => (⟨setJobState st.db env.now j.id "Waiting", st.told ++ [(j.id, .goodReservation)], st.asked, if j.start - 1 ≤ env.now ∧ st.code = 0 then 1 else st.code⟩, true)

/-- A job to launch: `notify_to_run_job` (oar/kao/meta_sched.py:191-228, 1327-1330), without OAR2. -/
def launch (env : Env) (j : JobRow) (st : St) : St × Bool :=
  if j.id ∈ env.treated then (st, true)
  else if env.commander j.id then ({ st with asked := st.asked ++ [j.id] }, true)
  else (st, true)

/-- A loop that an exception stops. -/
def each (f : JobRow → St → St × Bool) : List JobRow → St → St × Bool
  | [], st => (st, true)
  | j :: l, st => if (f j st).2 then each f l (f j st).1 else f j st

/-- What follows, unless an exception was raised. -/
def andThen (x : St × Bool) (f : St → St × Bool) : St × Bool := if x.2 then f x.1 else x

/-- The jobs in a state, as `get_current_not_waiting_jobs` gives them (oar/lib/job_handling.py:744-771). -/
def inState (db : DB) (s : String) : List JobRow := db.jobs.filter (fun j => j.state == s)

/-- The end of the round (oar/kao/meta_sched.py:1133-1332); `code`: the exit code of the launching. The Boolean: no exception. -/
def finish (env : Env) (code : Int) (db : DB) : St × Bool :=
  andThen (andThen (andThen (andThen (each (resume env) (inState db "Resuming") ⟨db, [], [], code⟩)
    (fun st => each (predict env) (interactive env st.db) st))
    (each (fail env) (inState db "toError")))
    (each (ack env) (inState db "toAckReservation")))
    (each (launch env) (inState db "toLaunch"))

end Oar.EndRound
