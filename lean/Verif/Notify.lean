import Verif.Script
import Verif.NodeChange

/-!
# Model of the notifications of a job

The option `--notify`: its checks at the submission (`oar/lib/submission.py`), `notify_user` (`oar/lib/tools.py`), and the two callers of `notify_user`: `set_job_state`
(`oar/lib/job_handling.py`) and the treatment of the deletion requests (`oar/modules/node_change_state.py`). The texts have no line break (the character that `.` does not
match).
-/

namespace Oar.Notify

open Oar.Tools Oar.Config Oar.Script Oar.Jobs

/-- The characters of `[a-zA-Z0-9_.\/ -]` (oar/lib/tools.py:77, oar/lib/submission.py:209). -/
def safe (c : Char) : Bool :=
  (decide ('a' ≤ c) && decide (c ≤ 'z')) || (decide ('A' ≤ c) && decide (c ≤ 'Z')) || (decide ('0' ≤ c) && decide (c ≤ '9')) ||
  c == '_' || c == '.' || c == '/' || c == ' ' || c == '-'

/-- `\s*:(.+)$`: what follows the colon. -/
def colon (t : List Char) : Option (List Char) :=
  match t.dropWhile isSpace with
  | ':' :: a => if a = [] then none else some a
  | _ => none

/-- `\s*(mail|exec)\s*:.+$`. -/
def methodOk (t : List Char) : Bool :=
  (((after (txt "mail") (t.dropWhile isSpace)).bind colon).isSome || ((after (txt "exec") (t.dropWhile isSpace)).bind colon).isSome)

/-- What precedes the last `]` that is followed by a method: `(.+)` is greedy. -/
def lastClose : List Char → Option (List Char)
  | [] => none
  | c :: r =>
    match lastClose r with
    | some i => some (c :: i)
    | none => if c = ']' ∧ methodOk r = true then some [] else none

/-- The group 1 of `^\s*\[\s*(.+)\s*\]\s*(mail|exec)\s*:.+$` (oar/lib/tools.py:52): `\s*` takes the blanks at the beginning, unless there is nothing else; `(.+)` takes the
blanks at the end. -/
def tagGroup (t : List Char) : Option (List Char) :=
  match t.dropWhile isSpace with
  | '[' :: r =>
    match lastClose r with
    | none => none
    | some i => if i.dropWhile isSpace = [] then i.getLast?.map (fun c => [c]) else some (i.dropWhile isSpace)
  | _ => none

/-- The tags without brackets (oar/lib/tools.py:51). -/
def allTags : List (List Char) := [txt "RUNNING", txt "END", txt "ERROR", txt "INFO", txt "SUSPENDED", txt "RESUMING"]

/-- The tags of a notification (oar/lib/tools.py:51-54). -/
def tags (t : List Char) : List (List Char) :=
  match tagGroup t with
  | none => allTags
  | some g => split ',' g

/-- The group of `^.*mail\s*:(.+)$` (oar/lib/tools.py:57): `.*` is greedy, it is the last possible place. -/
def mailTo : List Char → Option (List Char)
  | [] => none
  | c :: r =>
    match mailTo r with
    | some a => some a
    | none => (after (txt "mail") (c :: r)).bind colon

/-- The group of `^.*exec\s*:([a-zA-Z0-9_.\/ -]+)$` (oar/lib/tools.py:77, oar/lib/submission.py:209). -/
def execCmd : List Char → Option (List Char)
  | [] => none
  | c :: r =>
    match execCmd r with
    | some a => some a
    | none => ((after (txt "exec") (c :: r)).bind colon).bind (fun a => if a.all safe = true then some a else none)

/-- `^.*exec\s*:.+$` (oar/lib/submission.py:209). -/
def hasExec : List Char → Bool
  | [] => false
  | c :: r => hasExec r || ((after (txt "exec") (c :: r)).bind colon).isSome

/-- What `notify_user` sends. -/
inductive Action where
  | nothing
  | mail (to : List Char)
  | exec (cmd : List Char)
  deriving DecidableEq

/-- The choice of `notify_user` (oar/lib/tools.py:49-92) for the column `notify` of the job and a state; an empty column is false. -/
def action (notify state : List Char) : Action :=
  if notify = [] then .nothing
  else if state ∈ tags notify then
    match mailTo notify with
    | some a => .mail a
    | none =>
      match execCmd notify with
      | some c => .exec c
      | none => .nothing
  else .nothing

/-- The checks of a submission on the notification: first `check_parameters` (oar/lib/submission.py:208-215, code 16), then `add_micheline_jobs`
(oar/lib/submission.py:1381-1386, code -6). `none`: accepted. -/
def check (notify : List Char) : Option Int :=
  if notify ≠ [] ∧ hasExec notify = true ∧ execCmd notify = none then some 16
  else if notify ≠ [] ∧ methodOk notify = false ∧ tagGroup notify = none then some (-6)
  else none

/-- The outside of a notification: the column `notify` of the jobs, and whether the mail server takes the message or the command of the user ends with status 0 before the
timeout. -/
structure World where
  notify : Nat → List Char
  works : Nat → List Char → Bool

/-- A notification raises when the mail is refused (`smtplib` raises, oar/lib/tools.py:119-121), when the command fails (`"…" + e.output` adds a text and bytes,
oar/lib/tools.py:101) and when it is too long (`p` is not bound, oar/lib/tools.py:104). -/
def raises (w : World) (jid : Nat) (state : List Char) : Bool :=
  decide (action (w.notify jid) state ≠ .nothing) && !w.works jid state

/-- The event that a notification registers before or after it (oar/lib/tools.py:60-65 and 112-113). -/
def notified (w : World) (db : DB) (jid : Nat) (state : List Char) : DB :=
  match action (w.notify jid) state with
  | .nothing => db
  | .mail _ => addEvent db "USER_MAIL_NOTIFICATION" jid
  | .exec _ => if w.works jid state then addEvent db "USER_EXEC_NOTIFICATION" jid else db

/-- The tag of the notification of a state (oar/lib/job_handling.py:1747-1793). -/
def tagOf (st : String) : Option (List Char) :=
  if st = "Suspended" then some (txt "SUSPENDED")
  else if st = "Resuming" then some (txt "RESUMING")
  else if st = "Running" then some (txt "RUNNING")
  else if st = "Terminated" then some (txt "END")
  else if st = "Error" then some (txt "ERROR")
  else none

/-- What `set_job_state` does after the notification of the end of a job (oar/lib/job_handling.py:1795-1800). -/
inductive Step where
  | priorityStop
  | logJob
  | chState
  deriving DecidableEq

/-- Models `set_job_state` (oar/lib/job_handling.py:1693-1814) with its notification: the database, the last steps, whether an exception left the function. -/
def setState (w : World) (db : DB) (now : Int) (jid : Nat) (st : String) : DB × List Step × Bool :=
  match db.job? jid with
  | none => (db, [], false)
  | some j =>
    if mayBecome j st then
      match tagOf st with
      | none => (setJobState db now jid st, [], false)
      | some tag =>
        if raises w jid tag then (notified w (setJobState db now jid st) jid tag, [], true)
        else
          (notified w (setJobState db now jid st) jid tag, if st = "Terminated" ∨ st = "Error" then [.priorityStop, .logJob, .chState] else [],
           false)
    else (db, [], false)

/-- The treatment of an event with the notification of a deletion request (oar/modules/node_change_state.py:66-328); the notifications of `set_job_state` are supposed to
work here. When the treatment of another event raises, its partial effects are not modelled. An exception leaves the module: the result is the database (committed) and no host. -/
def ncsEventN (w : World) (env : Env) (db : DB) (ev : Event) : DB × Option (List (String × Bool)) :=
  if ev.type = "FRAG_JOB_REQUEST" ∧ (db.job? ev.jid).isSome = true ∧ raises w ev.jid (txt "INFO") = true then (notified w db ev.jid (txt "INFO"), none)
  else
    match ncsEvent env (if ev.type = "FRAG_JOB_REQUEST" then notified w db ev.jid (txt "INFO") else db) ev with
    | none => (db, none)
    | some (db', hs) => (db', some hs)

/-- The loop over the events, the oldest first. -/
def ncsLoopN (w : World) (env : Env) : List Event → DB → DB × Option (List (String × Bool))
  | [], db => (db, some [])
  | ev :: evs, db =>
    match ncsEventN w env db ev with
    | (db', none) => (db', none)
    | (db', some hs) =>
      match ncsLoopN w env evs db' with
      | (db'', none) => (db'', none)
      | (db'', some hs') => (db'', some (hs ++ hs'))

/-- The first part of `NodeChangeState.run`; the second part, the `next_state` of the resources, is done when the first one ends without exception. -/
def ncsRunN (w : World) (env : Env) (db : DB) : DB × Option (List (String × Bool)) := ncsLoopN w env (db.events.filter (fun e => e.toCheck)) db

/-- `n` successive runs of the module, whatever it reads outside. -/
def runs (w : World) : List Env → DB → DB
  | [], db => db
  | env :: envs, db => runs w envs (ncsRunN w env db).1

end Oar.Notify
