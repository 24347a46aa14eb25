import Verif.Launch
import Verif.Reservation
import Verif.Queues
import Mathlib.Data.Finset.Lattice.Fold

/-!
# Model of a whole round of the meta-scheduler (`meta_schedule`, internal mode)

The pieces modelled elsewhere (numbering of the resources, timelines, scheduling of the waiting jobs, reservations, launching) put together in the order of
`oar/kao/meta_sched.py:845-1061`.

Not modelled here: the walltime changes, the plug-in `EXTRA_METASCHED`, messages, the energy saving, the other modes, other programs changing the tables while the round runs. The
descriptions of the waiting jobs (request, types, dependencies) and their order are inputs: they are the subject of C31, C62 and C64.
-/

namespace Oar.Round

open Oar.Launch Oar.ResSet Oar.JobTypes Oar.Tools Oar.Queues

/-- The states of the jobs that occupy resources (oar/kao/meta_sched.py:132-137). -/
def currentStates : List String := ["Running", "toLaunch", "Launching", "Finishing", "Suspended", "Resuming"]

/-- `get_jobs_in_multiple_states` (oar/lib/job_handling.py:1252-1290): the jobs which occupy resources, with their start and the ordered numbers of their assigned resources (a
`ProcSet`: without duplicates). A job without assigned resource is not there. -/
def current (s : RS) (db : DB) : List EJob :=
  (db.jobs.filter (fun j => currentStates.contains j.state && db.assigned.any (fun a => a.1 == j.mold))).map (fun j =>
    ⟨j, j.mold, j.start, 0, ((db.assigned.filter (fun a => a.1 == j.mold)).map (fun a => s.i2o a.2)).eraseDups⟩)

/-- The rows of a query on the Gantt with `order_by(Job.start_time, Job.id)` (oar/lib/job_handling.py:475-496, 532-549): a stable sort by the identifier, then by the start. -/
def sorted (rows : List Row) : List Row := pySort (fun r : Row => r.job.start) (pySort (fun r : Row => r.job.id) rows)

/-- The job given to the timelines (oar/lib/job_handling.py:140-186, 437-460); `none`: its types cannot be read. -/
def toJob (e : EJob) : Option Kao.Job :=
  (jobTypes e.job.types Info.empty).map (fun i =>
    { id := e.job.id
      types := i.types.map (fun p => (String.ofList p.1, String.ofList p.2))
      ts := i.ts.isSome
      tsUser := String.ofList ((i.ts.map (·.1)).getD [])
      tsName := String.ofList ((i.ts.map (·.2)).getD [])
      ph := if i.placeholder.isSome then 1 else if i.allow.isSome then 2 else 0
      phName := String.ofList ((i.placeholder <|> i.allow).getD [])
      name := e.job.name
      user := e.job.user
      queue := e.job.queue
      noQuotas := i.noQuotas
      startTime := e.start
      walltime := some e.walltime
      resSet := some e.res.toFinset
      moldableId := e.mid })

/-- The pseudo jobs of the dates of availability, sorted by date (oar/kao/meta_sched.py:143-153). -/
def pseudo (s : RS) : List Kao.Job :=
  (pySort (fun p : Int × List Nat => p.1) s.upto).map (fun p =>
    { id := 0, startTime := p.1, walltime := some (Kao.maxTime - p.1), resSet := some p.2.toFinset })

/-- The initial timeline (oar/kao/meta_sched.py:123-124, 140-156). -/
def initial (ctx : Kao.Ctx) (s : RS) (now : Int) : Option (Kao.Ctx × Kao.SlotSet) :=
  match (Kao.SlotSet.ofItvs ctx s.roids.toFinset now).initCalendar ctx with
  | none => none
  | some (ctx', ss) =>
    if pseudo s = [] then some (ctx', ss) else (ss.splitJobs ctx' (pseudo s) true).map (fun ss' => (ctx', ss'))

/-- The hierarchy given to the scheduler. -/
def hyOf (s : RS) : Hierarchy.Hy := s.hy.map (fun p => (p.1, p.2.map (fun b => b.2.toFinset)))

/-- Models `gantt_init_with_running_jobs` (oar/kao/meta_sched.py:106-188): the tables, the context, the timelines, the jobs of the Gantt. -/
def init (ctx : Kao.Ctx) (s : RS) (sec now : Int) (db : DB) :
    Option (DB × Kao.Ctx × List (String × Kao.SlotSet) × List EJob × List Kao.Job) :=
  let db1 := flush (reservationsToKeep db) db
  let db2 := saveAssigns s db1 (current s db1)
  match initial ctx s now with
  | none => none
  | some (ctx', ss) =>
    let sched := extract s sec (sorted (join db2))
    match sched.mapM toJob with
    | none => none
    | some js =>
      if js = [] then some (db2, ctx', [("default", ss)], sched, js)
      else (Kao.setPrev ctx' [("default", ss)] js sec now true false).map (fun sets => (db2, ctx', sets, sched, js))

/-- A group of queues of the same priority: the names of its active queues, the waiting jobs in the order of the scheduling, the reservations to examine by queue. -/
structure Grp where
  names : List String
  waiting : List Kao.Job
  resv : List (String × List Kao.Job)

/-- `list(res_set)`: the resources in increasing order. -/
def procList (R : ProcSet) : List Nat := (List.range (R.sup id + 1)).filter (fun k => decide (k ∈ R))

/-- What `save_assigns` reads of a scheduled job (oar/lib/job_handling.py:645-664). -/
def toE (db : DB) (j : Kao.Job) : Option EJob :=
  (db.jobs.find? (fun l => l.id == j.id)).map (fun l => ⟨l, j.moldableId.toNat, j.startTime, j.walltime.getD 0, procList (j.resSet.getD ∅)⟩)

/-- `get_waiting_scheduled_AR_jobs` (oar/lib/job_handling.py:529-555). -/
def waitingResv (s : RS) (sec : Int) (queue : String) (db : DB) : List EJob :=
  extract s sec (sorted ((join db).filter (fun r => r.job.queue == queue && r.job.reservation == "Scheduled" && r.job.state == "Waiting")))

/-- The effects of `check_reservation_jobs` on the table of jobs (oar/kao/meta_sched.py:386-468): the last state written, the state of the reservation. -/
def ackResv (db : DB) (o : Kao.ArOut) : DB :=
  { db with jobs := db.jobs.map (fun j => if j.id = o.job.id then
      { j with state := o.states.getLastD j.state, reservation := if o.resaScheduled then "Scheduled" else j.reservation, start := o.job.startTime } else j) }

/-- The reservations of a queue (oar/kao/meta_sched.py:959-977): `handle_waiting_reservation_jobs`, then `check_reservation_jobs`. -/
def queueResv (ctx : Kao.Ctx) (s : RS) (sec timeout now : Int) (queue : String) (resv : List Kao.Job) (x : DB × List (String × Kao.SlotSet)) :
    Option (DB × List (String × Kao.SlotSet)) :=
  match waitingARs s timeout now x.1 (waitingResv s sec queue x.1) with
  | none => none
  | some db =>
    if resv = [] then some (db, x.2)
    else match x.2.lookup "default" with
      | none => none
      | some ss =>
        match Kao.reserveAll ctx (hyOf s) sec now ss resv with
        | none => none
        | some (ss', outs) =>
          let db1 := outs.foldl ackResv db
          some (saveAssigns s db1 ((outs.filter (fun o => o.states.contains "toAckReservation")).filterMap (fun o => toE db1 o.job)), Kao.dictSet "default" ss' x.2)

/-- The reservations of the queues of a group. -/
def groupResv (ctx : Kao.Ctx) (s : RS) (sec timeout now : Int) (resv : List (String × List Kao.Job)) :
    List String → DB × List (String × Kao.SlotSet) → Option (DB × List (String × Kao.SlotSet))
  | [], x => some x
  | q :: qs, x => (queueResv ctx s sec timeout now q ((resv.lookup q).getD []) x).bind (groupResv ctx s sec timeout now resv qs)

/-- One group of queues (oar/kao/meta_sched.py:759-781, 923-977; oar/kao/kamelot.py:78-139): the running best-effort jobs are placed only when the group is the queue
`besteffort` alone. -/
def group (s : RS) (sec timeout now : Int) (js : List Kao.Job) (g : Grp) (x : DB × Kao.Ctx × List (String × Kao.SlotSet)) :
    Option (DB × Kao.Ctx × List (String × Kao.SlotSet)) :=
  match (if g.names = ["besteffort"] then Kao.setPrev x.2.1 x.2.2 js sec now false true else some x.2.2) with
  | none => none
  | some sets =>
    match Kao.schedule (hyOf s) sec (g.waiting.map (·.id)) ⟨x.2.1, sets, g.waiting⟩ with
    | none => none
    | some st =>
      let db := saveAssigns s x.1 (st.jobs.filterMap (toE x.1))
      (groupResv st.ctx s sec timeout now g.resv g.names (db, st.sets)).map (fun y => (y.1, st.ctx, y.2))

/-- The groups in order. -/
def groups (s : RS) (sec timeout now : Int) (js : List Kao.Job) :
    List Grp → DB × Kao.Ctx × List (String × Kao.SlotSet) → Option (DB × Kao.Ctx × List (String × Kao.SlotSet))
  | [], x => some x
  | g :: gs, x => (group s sec timeout now js g x).bind (groups s sec timeout now js gs)

/-- The rows that `save_assigns` inserts in the two tables of the Gantt (oar/lib/job_handling.py:645-664, 681-683), as `saveAssigns`, with what SQLAlchemy does of an empty list: an
insertion without values adds the row of the default values, here `(0, 0)` (oar/lib/models.py:206-213, 244-251); nothing is inserted when there is no job at all (line 643). `none`: the
row `(0, 0)` is already there, which the primary key refuses. -/
def saveRows (s : RS) (db : DB) (l : List EJob) : Option DB :=
  if l = [] then some db
  else if l.all (fun e => decide (e.start ≤ -1)) then
    if db.preds.any (fun p => p.1 == 0) || db.gres.contains (0, 0) then none
    else some { db with preds := db.preds ++ [(0, 0)], gres := db.gres ++ [(0, 0)] }
  else some (saveAssigns s db l)

/-- The group has waiting jobs and none of them gets a date: `save_assigns` inserts the row of the default values (see `saveRows`). -/
def idle (s : RS) (sec now : Int) (js : List Kao.Job) (g : Grp) (x : DB × Kao.Ctx × List (String × Kao.SlotSet)) : Bool :=
  match (if g.names = ["besteffort"] then Kao.setPrev x.2.1 x.2.2 js sec now false true else some x.2.2) with
  | none => false
  | some sets =>
    match Kao.schedule (hyOf s) sec (g.waiting.map (·.id)) ⟨x.2.1, sets, g.waiting⟩ with
    | none => false
    | some st => !st.jobs.isEmpty && st.jobs.all (fun j => decide (j.startTime ≤ -1))

/-- How many groups are idle. -/
def idles (s : RS) (sec timeout now : Int) (js : List Kao.Job) : List Grp → DB × Kao.Ctx × List (String × Kao.SlotSet) → Nat
  | [], _ => 0
  | g :: gs, x => (if idle s sec now js g x then 1 else 0) + (match group s sec timeout now js g x with
    | none => 0
    | some x' => idles s sec timeout now js gs x')

/-- The settings of a round: security time, time-out of the reservations, duration of the early killing of the best-effort jobs. -/
structure Conf where
  sec : Int
  timeout : Int := 0
  kill : Int := 0

/-- Models `meta_schedule` (oar/kao/meta_sched.py:845-1061), at the date `now`, with the resources `s`. `ord` is the order in which the database gives the rows of a query without
order. `none`: an exception. The result: the tables and the exit code. The row of the default values inserted by the first idle group is not kept in the tables: no moldable has the number
0, so no query gives it, and it is deleted at the beginning of the next round (`saveRows_join`, `saveRows_flush`); inserting it a second time in a round is refused by the primary key
(`saveRows_twice`). -/
def round (cf : Conf) (ctx : Kao.Ctx) (s : RS) (ord : List Row → List Row) (gs : List Grp) (now : Int) (db : DB) : Option (DB × Int) :=
  match init ctx s cf.sec now db with
  | none => none
  | some (db1, ctx1, sets, sched, js) =>
    match groups s cf.sec cf.timeout now js gs (db1, ctx1, sets) with
    | none => none
    | some (db2, _, _) =>
      if 2 ≤ idles s cf.sec cf.timeout now js gs (db1, ctx1, sets) then none
      else launchRound s cf.sec now (ord ((join db2).filter (toLaunchRow (now + cf.kill)))) sched db2

end Oar.Round
