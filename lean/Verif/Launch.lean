import Verif.ResourceSet
import Verif.JobTypes

/-!
# Model of the launching part of the meta-scheduler

`oar/kao/meta_sched.py` and the functions on the Gantt tables of `oar/lib/job_handling.py`.
-/

namespace Oar.Launch

open Oar.ResSet Oar.JobTypes Oar.Tools

/-- The columns of `jobs` read here, with the rows of `job_types` of the job. `suspSum` stands for
`get_job_suspended_sum_duration` (see the model of the jobs, C41). -/
structure LJob where
  id : Nat
  state : String
  reservation : String
  queue : String
  user : String
  name : String
  types : List (List Char)
  checkpoint : Nat
  suspended : Bool
  suspSum : Int
  start : Int
  mold : Nat
  deriving DecidableEq

/-- A row of `moldable_job_descriptions`. -/
structure Mold where
  id : Nat
  job : Nat
  walltime : Int
  deriving DecidableEq

/-- The tables: `preds` is `gantt_jobs_predictions` (moldable, start), `gres` is `gantt_jobs_resources` (moldable,
resource), `assigned` is `assigned_resources`, `frag` the jobs of `frag_jobs`, `events` (type, job) of `event_logs`,
`sent` the launching messages sent to the commander. -/
structure DB where
  jobs : List LJob
  molds : List Mold
  preds : List (Nat × Int)
  gres : List (Nat × Nat)
  assigned : List (Nat × Nat)
  frag : List Nat
  events : List (String × Nat)
  sent : List Nat
  deriving DecidableEq

/-- A row of the queries of the Gantt. -/
structure Row where
  job : LJob
  mid : Nat
  start : Int
  walltime : Int
  rid : Nat
  deriving DecidableEq

/-- The join of the queries (oar/lib/job_handling.py:575-591 and the like): a prediction, its moldable, the job of the
moldable, a resource of the prediction. -/
def join (db : DB) : List Row :=
  db.preds.flatMap (fun p => (db.molds.filter (fun m => m.id = p.1)).flatMap (fun m =>
    (db.jobs.filter (fun j => j.id = m.job)).flatMap (fun j =>
      (db.gres.filter (fun g => g.1 = p.1)).map (fun g => ⟨j, p.1, p.2, m.walltime, g.2⟩))))

/-- The filters of `get_gantt_jobs_to_launch` (oar/lib/job_handling.py:575-591). -/
def toLaunchRow (date : Int) (r : Row) : Bool := decide (r.start ≤ date ∧ r.job.state = "Waiting")

/-- A job built by `extract_scheduled_jobs`: `res` are ordered numbers. -/
structure EJob where
  job : LJob
  mid : Nat
  start : Int
  walltime : Int
  res : List Nat
  deriving DecidableEq

/-- The consecutive rows of the same job (the test `j.id != prev_jid`, oar/lib/job_handling.py:434-442): the first row
gives the attributes. -/
def runs : List Row → List (Row × List Nat)
  | [] => []
  | r :: rs => match runs rs with
    | [] => [(r, [r.rid])]
    | (r', l) :: t => if r.job.id = r'.job.id then (r, r.rid :: l) :: t else (r, [r.rid]) :: (r', l) :: t

/-- The attributes of a job from its rows (oar/lib/job_handling.py:437-460). -/
def mkJob (s : RS) (sec : Int) (x : Row × List Nat) : EJob :=
  ⟨x.1.job, x.1.mid, x.1.start, x.1.walltime + sec + (if x.1.job.suspended then x.1.job.suspSum else 0), x.2.map s.i2o⟩

/-- After the loop, only the last job is treated as suspended (oar/lib/job_handling.py:462-464). -/
def treatLast (s : RS) : List EJob → List EJob
  | [] => []
  | [e] => if e.job.state = "Suspended" then [{ e with res := e.res.filter (fun k => !s.suspendable.contains k) }] else [e]
  | e :: l => e :: treatLast s l

/-- All the occurrences of a job are the same object of the session: the attributes are those written last. -/
def lastOf (l : List EJob) (e : EJob) : EJob := (l.reverse.find? (fun x => x.job.id = e.job.id)).getD e

/-- `extract_scheduled_jobs` (oar/lib/job_handling.py:423-470): the list `jobs_lst`. -/
def extract (s : RS) (sec : Int) (rows : List Row) : List EJob :=
  let l := treatLast s ((runs rows).map (mkJob s sec))
  l.map (lastOf l)

/-- The dictionary `rid2jid` of `extract_scheduled_jobs` (oar/lib/job_handling.py:458-460), keyed by ordered numbers. -/
def ridMap (s : RS) (rows : List Row) : List (Nat × Nat) :=
  rows.foldl (fun d r => dictSet (s.i2o r.rid) r.job.id d) []

/-- The attribute `types` of an extracted job; the reading of malformed types raises (`none`). -/
def typesOf (j : LJob) : Option (List (List Char × List Char)) := (jobTypes j.types Info.empty).map (·.types)

/-- The jobs built by the round have readable types (`get_jobs_types` at the end of `extract_scheduled_jobs`). -/
def tjob (j : LJob) : TJob := ⟨(typesOf j).getD [], j.user, j.name⟩

/-- `besteffort_rid2job` (oar/kao/meta_sched.py:167-174). -/
def beMap (sched : List EJob) : List (Nat × LJob) :=
  sched.foldl (fun d e => if ((tjob e.job).types.lookup (txt "besteffort")).isSome
    then e.res.foldl (fun d k => dictSet k e.job d) d else d) []

/-- `check_besteffort_jobs_to_kill` (oar/kao/meta_sched.py:477-556): the best-effort jobs to delete, in order. A
best-effort job with a checkpoint makes `get_job_events(be_job.id)` raise: an argument is missing (`none`). -/
def toKill (ej : List EJob) (be : List (Nat × LJob)) : List (Nat × Nat) → List Nat → Option (List Nat)
  | [], killed => some killed
  | (rid, jid) :: items, killed =>
    match be.lookup rid with
    | none => toKill ej be items killed
    | some b =>
      match ej.find? (fun e => e.job.id = jid) with
      | none => none
      | some e =>
        if isTimesharing (tjob b) (tjob e.job) then toKill ej be items killed
        else if b.id ∈ killed then toKill ej be items killed
        else if 0 < b.checkpoint then none
        else toKill ej be items (killed ++ [b.id])

/-- The deletion of a best-effort job: the event and `frag_job` called by the server (oar/kao/meta_sched.py:543-549;
`frag_job` adds a row if there is none). -/
def killJob (db : DB) (id : Nat) : DB :=
  { db with events := db.events ++ [("BESTEFFORT_KILL", id)],
            frag := if id ∈ db.frag then db.frag else db.frag ++ [id] }

/-- `set_moldable_job_max_time` (oar/lib/job_handling.py:1310-1316). -/
def setMaxTime (db : DB) (mid : Nat) (w : Int) : DB :=
  { db with molds := db.molds.map (fun m => if m.id = mid then { m with walltime := w } else m) }

/-- `set_gantt_job_start_time` (oar/lib/job_handling.py:1320-1328). -/
def setGanttStart (db : DB) (mid : Nat) (t : Int) : DB :=
  { db with preds := db.preds.map (fun p => if p.1 = mid then (p.1, t) else p) }

/-- `prepare_job_to_be_launched` (oar/kao/meta_sched.py:231-255): start date, assigned moldable, the resources of the
prediction become the assigned ones, state toLaunch (effects of `set_job_state` on the log are in the model of the
jobs), message to the commander. -/
def prepare (db : DB) (now : Int) (e : EJob) : DB :=
  { db with
    jobs := db.jobs.map (fun j => if j.id = e.job.id then { j with start := now, mold := e.mid, state := "toLaunch" } else j)
    assigned := db.assigned ++ db.gres.filter (fun g => g.1 = e.mid)
    sent := db.sent ++ [e.job.id] }

/-- The body of the loop of `handle_jobs_to_launch` (oar/kao/meta_sched.py:566-604); the text of the message is not
modelled. -/
def launchOne (now : Int) (db : DB) (e : EJob) : DB :=
  if e.job.reservation = "Scheduled" ∧ e.start < now then
    let db1 := setGanttStart (setMaxTime db e.mid (e.walltime - (now - e.start))) e.mid now
    prepare { db1 with events := db1.events ++ [("REDUCE_RESERVATION_WALLTIME", e.job.id)] } now e
  else prepare db now e

/-- The filter of the jobs to launch (oar/kao/meta_sched.py:1025-1035). -/
def ready (s : RS) (now : Int) (e : EJob) : Bool := decide (e.start ≤ now) && e.res.all (fun k => !s.absent.contains k)

/-- The launching part of `meta_schedule` (oar/kao/meta_sched.py:1013-1070): `rows` are the rows of the query of
`get_gantt_jobs_to_launch` in the order the database returned them, `sched` the jobs of the Gantt at the beginning of
the round. The result is the exit code with the new tables. -/
def launchRound (s : RS) (sec now : Int) (rows : List Row) (sched : List EJob) (db : DB) : Option (DB × Int) :=
  let ej := extract s sec rows
  match toKill ej (beMap sched) (ridMap s rows) [] with
  | none => none
  | some [] => some ((ej.filter (ready s now)).foldl (launchOne now) db, 0)
  | some (k :: ks) => some ((k :: ks).foldl killJob db, 2)

/-- `remove_gantt_resource_job` (oar/lib/job_handling.py:1332-1342): the resources that are *not* in the set given are
deleted. -/
def removeGantt (s : RS) (mid : Nat) (res : List Nat) (db : DB) : DB :=
  if res = [] then db
  else { db with gres := db.gres.filter (fun g => !(g.1 = mid && !(res.map s.o2i).contains g.2)) }

/-- The set difference and intersection of `ProcSet` on lists of ordered numbers. -/
def inter (a b : List Nat) : List Nat := a.filter (fun k => b.contains k)
def diff (a b : List Nat) : List Nat := a.filter (fun k => !b.contains k)

/-- One job of `handle_waiting_reservation_jobs` (oar/kao/meta_sched.py:270-343). `none` is the exception raised by the
concatenation of a text and a number in the warning (312-317). Messages are not modelled. -/
def waitingAR (s : RS) (timeout now : Int) (db : DB) (e : EJob) : Option DB :=
  if e.start + e.walltime < now then
    some { db with jobs := db.jobs.map (fun j => if j.id = e.job.id then { j with state := "Error" } else j) }
  else if (inter e.res s.roids) = [] ∧ e.start < now then some (setGanttStart db e.mid (now + 1))
  else if e.start < now then
    if now < e.start + timeout then
      (if diff e.res s.roids = [] then some db else none)
    else
      let db1 := removeGantt s e.mid (diff e.res s.roids) db
      some { db1 with events := db1.events ++ [("SCHEDULER_REDUCE_NB_RESSOURCES_FOR_RESERVATION", e.job.id)] }
  else some db

/-- `handle_waiting_reservation_jobs` (oar/kao/meta_sched.py:258-349). -/
def waitingARs (s : RS) (timeout now : Int) : DB → List EJob → Option DB
  | db, [] => some db
  | db, e :: l => (waitingAR s timeout now db e).bind (fun db' => waitingARs s timeout now db' l)

/-- `get_waiting_moldable_of_reservations_already_scheduled` (oar/lib/job_handling.py:1210-1228). -/
def reservationsToKeep (db : DB) : List Nat :=
  (db.molds.filter (fun m => decide (db.preds.any (fun p => p.1 = m.id) ∧ db.gres.any (fun g => g.1 = m.id) ∧
    db.jobs.any (fun j => j.id = m.job && (j.state == "Waiting" || j.state == "toAckReservation") &&
      j.reservation == "Scheduled")))).map (·.id)

/-- `gantt_flush_tables` (oar/lib/job_handling.py:1232-1249). -/
def flush (keep : List Nat) (db : DB) : DB :=
  if keep ≠ [] then
    { db with preds := db.preds.filter (fun p => keep.contains p.1), gres := db.gres.filter (fun g => keep.contains g.1) }
  else { db with preds := [], gres := [] }

/-- `save_assigns` (oar/lib/job_handling.py:641-683): the predictions of the scheduled jobs (start date above -1) are
inserted, resources translated by `rid_o2i`. Messages are not modelled. When jobs are given and none is scheduled the code also
inserts one row of default values, which no query gives: see `Round.saveRows`. -/
def saveAssigns (s : RS) (db : DB) (l : List EJob) : DB :=
  { db with
    preds := db.preds ++ (l.filter (fun e => decide (-1 < e.start))).map (fun e => (e.mid, e.start))
    gres := db.gres ++ (l.filter (fun e => decide (-1 < e.start))).flatMap (fun e => e.res.map (fun k => (e.mid, s.o2i k))) }

end Oar.Launch
