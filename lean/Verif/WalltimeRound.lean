import Verif.WalltimeProps
import Verif.Jobs

/-!
# Model of a round of `process_walltime_change_requests` on the whole database

`oar/kao/walltime_change.py` with the queries of `oar/lib/job_handling.py` that it uses. The settings are represented by the integers
`get_conf` returns for a queue and a walltime (C100 is about `get_conf`). The texts of the events and the logs are not modelled.
-/

namespace Oar.WalltimeRound

open Oar.Walltime

/-- A row of `job_types`: `name` or `name=value` (simplification: written without spaces, not a token). -/
structure Ty where
  name : String
  value : Option String
  deriving DecidableEq, Repr

/-- The columns used of the table `jobs` (oar/lib/models.py:368-406), with the rows of `job_types` of the job. -/
structure Job where
  id : Nat
  user : String
  name : Option String
  queue : String
  state : String
  start : Int
  assigned : Nat
  reservation : String
  types : List Ty
  deriving DecidableEq, Repr

/-- A row of `moldable_job_descriptions`. -/
structure Mold where
  id : Nat
  job : Nat
  walltime : Int
  deriving DecidableEq, Repr

/-- The database. `assigned`, `gres` : (moldable, resource); `preds` : (moldable, start date); `wtc` : (job, request); `events` : jobs of the
events `WALLTIME`, the last first. -/
structure Db where
  jobs : List Job
  molds : List Mold
  assigned : List (Nat × Nat)
  wtc : List (Nat × Wtc)
  preds : List (Nat × Int)
  gres : List (Nat × Nat)
  log : List Jobs.LogRow
  events : List Nat
  deriving DecidableEq, Repr

/-- What is outside of the database: the date, the security time, what `get_conf` returns for `WALLTIME_CHANGE_APPLY_TIME` and
`WALLTIME_INCREMENT` (queue, walltime), Python's `int` on a text, and the order in which the server returns distinct dates. -/
structure Env where
  now : Int
  sec : Int
  applyTime : String → Int → Int
  increment : String → Int → Int
  int : String → Option Nat
  sql : List Int → List Int

/-- A row of the result of the query of `get_jobs_with_walltime_change` (oar/lib/job_handling.py:2717-2739). -/
structure Row where
  job : Job
  walltime : Int
  req : Wtc
  rid : Nat
  deriving DecidableEq, Repr

/-- The query (oar/lib/job_handling.py:2717-2739): the running jobs with a request which is not null, joined with their assigned moldable and
its resources. -/
def select (db : Db) : List Row :=
  (db.jobs.filter (fun j => j.state == "Running")).flatMap (fun j =>
    (db.wtc.filter (fun w => w.1 == j.id && w.2.pending != 0)).flatMap (fun w =>
      (db.molds.filter (fun m => m.id == j.assigned)).flatMap (fun m =>
        (db.assigned.filter (fun a => a.1 == j.assigned)).map (fun a => ⟨j, m.walltime, w.2, a.2⟩))))

/-- A `JobWalltimeChange` (oar/lib/job_handling.py:2706-2710). -/
structure Entry where
  job : Job
  walltime : Int
  req : Wtc
  rids : List Nat
  deriving DecidableEq, Repr

/-- One row of the loop of `get_jobs_with_walltime_change` (oar/lib/job_handling.py:2742-2777). -/
def addRow : List Entry → Row → List Entry
  | [], r => [⟨r.job, r.walltime, r.req, [r.rid]⟩]
  | e :: es, r => if e.job.id = r.job.id then { e with rids := e.rids ++ [r.rid] } :: es else e :: addRow es r

/-- The dictionary built (oar/lib/job_handling.py:2741-2778). -/
def group (rows : List Row) : List Entry := rows.foldl addRow []

/-- `job_types[name]` in the dictionary of `get_job_types` (oar/lib/job_handling.py:1609-1631): the last row of the name. -/
def typeOf (j : Job) (name : String) : Option (Option String) := (j.types.reverse.find? (fun t => t.name == name)).map Ty.value

/-- `int(job_types["inner"])` (oar/kao/walltime_change.py:62): `int(True)` is 1 for a type without value. -/
def innerOf (env : Env) : Option String → Option Nat
  | none => some 1
  | some t => env.int t

/-- The end of the container: `get_running_job` (oar/lib/job_handling.py:1482-1492) and oar/kao/walltime_change.py:63-70; `none` when it
raises: the query has no row (`.one()`). -/
def containerEnd (env : Env) (db : Db) (v : Option String) : Option Int :=
  match innerOf env v with
  | none => none
  | some cid =>
    match db.jobs.find? (fun j => j.id == cid && j.state == "Running") with
    | none => none
    | some c => (db.molds.find? (fun m => m.id == c.assigned)).map (fun m => c.start + m.walltime)

/-- The end of the interval (oar/kao/walltime_change.py:58-81); `none` when it raises. -/
def upTo (env : Env) (db : Db) (e : Entry) (to_ : Int) : Option Int :=
  match typeOf e.job "inner" with
  | none => some to_
  | some v => (containerEnd env db v).map (fun c => if c < to_ then c else to_)

/-- A condition on a predicted job: one of these types, and these columns. -/
structure Excl where
  types : List Ty
  name : Option String
  user : Option String
  deriving DecidableEq, Repr

/-- The variable `exclude` (oar/lib/job_handling.py:2802-2827): `none` when the text of the query is not correct SQL, the name of the user or of
the job being inserted without quotes (simplification: such a name is not the one of a column). -/
def exclude (e : Entry) : Option (List Excl) :=
  match typeOf e.job "allowed" with
  | some (some v) => some [⟨[⟨"placeholder", some v⟩], none, none⟩]
  | some none => some [⟨[⟨"placeholder", some "True"⟩], none, none⟩]
  | none =>
    match typeOf e.job "timesharing" with
    | none => some []
    | some none => some []
    | some (some v) =>
      if v = "user,*" ∨ v = "*,user" then none
      else if v = "name,*" ∨ v = "*,name" then none
      else if v = "name,user" ∨ v = "user,name" then
        some [⟨[⟨"timesharing", some "user,name"⟩, ⟨"timesharing", some "name,user"⟩], some "$job_name", some e.job.user⟩]
      else if v = "*,*" then some [⟨[⟨"timesharing", some "*,*"⟩], none, none⟩]
      else some []

/-- The subquery of `NOT EXISTS` (oar/lib/job_handling.py:2842-2852) for a predicted job. -/
def skipped (ex : List Excl) (j : Job) : Bool :=
  j.types.any (fun t => t == ⟨"besteffort", none⟩ || ex.any (fun x => x.types.contains t &&
    (x.name.isNone || decide (j.name = x.name)) && (x.user.isNone || decide (some j.user = x.user))))

/-- The rows of the query of `get_possible_job_end_time_in_interval` (oar/lib/job_handling.py:2829-2856), before `DISTINCT`. -/
def starts (db : Db) (from_ to_ : Int) (rids : List Nat) (delay : Bool) (ex : List Excl) : List Int :=
  (db.jobs.filter (fun j => (! delay || j.reservation != "None") && ! skipped ex j)).flatMap (fun j =>
    (db.molds.filter (fun m => m.job == j.id)).flatMap (fun m =>
      (db.preds.filter (fun p => p.1 == m.id && decide (p.2 > from_) && decide (p.2 ≤ to_))).flatMap (fun p =>
        (db.gres.filter (fun g => g.1 == p.1 && rids.contains g.2)).map (fun _ => p.2))))

/-- What is decided for a job: an exception, nothing for now, or a number of seconds. -/
inductive Fit
  | raised
  | wait
  | give (f : Int)
  deriving DecidableEq, Repr

/-- `get_job_suspended_sum_duration` (oar/lib/job_handling.py:398-419). -/
def suspended (env : Env) (db : Db) (jid : Nat) : Int :=
  ((db.log.filter (fun r => r.jid == jid && (r.state == "Suspended" || r.state == "Resuming"))).map (Jobs.resTime env.now)).sum

/-- The date at which the job has to end (oar/kao/walltime_change.py:26, 57, 115). -/
def endOf (env : Env) (db : Db) (e : Entry) : Int := e.job.start + e.walltime + suspended env db e.job.id

/-- The seconds asked for this round (oar/kao/walltime_change.py:27, 34-36, 51-52). -/
def fitOf (env : Env) (e : Entry) : Int :=
  let inc := env.increment e.job.queue (e.walltime - e.req.granted)
  if e.req.force = false ∧ inc > 0 ∧ inc < e.req.pending then inc else e.req.pending

/-- Whether the change has to wait (oar/kao/walltime_change.py:29-31, 42-50). -/
def tooEarly (env : Env) (db : Db) (e : Entry) : Bool :=
  let a := env.applyTime e.job.queue (e.walltime - e.req.granted)
  ! e.req.force && decide (a > 0) && decide (endOf env db e - a - env.now > 0)

/-- The decision (oar/kao/walltime_change.py:26-117). -/
def decideFit (env : Env) (db : Db) (e : Entry) : Fit :=
  if e.req.pending > 0 then
    if tooEarly env db e then .wait
    else
      match upTo env db e (endOf env db e + fitOf env e) with
      | none => .raised
      | some to_ =>
        match exclude e with
        | none => .raised
        | some ex =>
          let f := endLoop env.sec (env.sql (starts db (endOf env db e) (to_ + env.sec) e.rids e.req.delay ex)) to_ - endOf env db e
          if f ≤ 0 then .wait else .give f
  else if e.req.pending < 0 then
    .give (if endOf env db e - env.now < - e.req.pending then - (endOf env db e - env.now) else e.req.pending)
  else .give 0

/-- The new row of the request (oar/kao/walltime_change.py:119-149, oar/lib/walltime.py:360-388). -/
def newReq (w : Wtc) (f : Int) : Wtc :=
  updateRow (w.pending - f) false false (some (w.granted + f)) (if w.force ∧ f > 0 then some (w.grantedForce + f) else none)
    (if w.delay ∧ f > 0 then some (w.grantedDelay + f) else some 0)

/-- `update_walltime_change_request` (oar/lib/walltime.py:360-388): the first commit. -/
def setReq (db : Db) (jid : Nat) (w : Wtc) : Db := { db with wtc := db.wtc.map (fun x => if x.1 = jid then (x.1, w) else x) }

/-- The update of `change_walltime` (oar/lib/job_handling.py:2866-2869): the moldables of the job; the second commit. -/
def setWall (db : Db) (jid : Nat) (w : Int) : Db := { db with molds := db.molds.map (fun m => if m.job = jid then { m with walltime := w } else m) }

/-- The event (oar/lib/job_handling.py:2870-2871): the third commit. -/
def addEvent (db : Db) (jid : Nat) : Db := { db with events := jid :: db.events }

/-- What is committed for a job, in order (oar/kao/walltime_change.py:132-151, oar/lib/job_handling.py:2864-2871). -/
def commits (db : Db) (e : Entry) (f : Int) : List Db :=
  let d1 := setReq db e.job.id (newReq e.req f)
  let d2 := setWall d1 e.job.id (e.walltime + f)
  [d1, d2, addEvent d2 e.job.id]

/-- The database once the change is recorded. -/
def record (db : Db) (e : Entry) (f : Int) : Db :=
  addEvent (setWall (setReq db e.job.id (newReq e.req f)) e.job.id (e.walltime + f)) e.job.id

/-- The loop (oar/kao/walltime_change.py:25-151); the boolean tells that it does not raise. -/
def run (env : Env) : List Entry → Db → Db × Bool
  | [], db => (db, true)
  | e :: es, db =>
    match decideFit env db e with
    | .raised => (db, false)
    | .wait => run env es db
    | .give f => run env es (record db e f)

/-- Models `process_walltime_change_requests(session, config, plt)` (oar/kao/walltime_change.py:18-151); `rows` is the result of the query. -/
def process (env : Env) (rows : List Row) (db : Db) : Db × Bool := run env (group rows) db

/-- The call in the metascheduler (oar/kao/meta_sched.py:872-875): `process_walltime_change_requests(plt)` lacks two arguments, which raises
`TypeError` before anything is read. -/
def metaCall (enabled : Option String) (db : Db) : Db × Bool := if enabled = some "yes" then (db, false) else (db, true)

end Oar.WalltimeRound
