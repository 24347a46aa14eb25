import Verif.Round

/-!
# Model of a round of the meta-scheduler in external mode

With `METASCHEDULER_MODE=external` the meta-scheduler starts one process for each active queue, by decreasing priority (`call_external_scheduler`, oar/kao/meta_sched.py:632-745). The process
(`oar/kao/kamelot.py`, the scheduler shipped with OAR) reads the Gantt from the database, places the waiting jobs of its queue and writes their dates there; the meta-scheduler looks at its
return code only.

Not modelled here: what is not modelled in `Round`; the plug-in; schedulers other than kamelot; queues of the same priority are treated in the order in which the database gives them.
-/

namespace Oar.Round

open Oar.Launch Oar.ResSet Oar.JobTypes Oar.Tools Oar.Queues

/-- The end of the process of a scheduler: it cannot be started (`OSError`, oar/kao/meta_sched.py:696-708), it runs to its end, it is killed by a signal before or after its `commit`; `n` is the number of the signal less one: the numbers begin at 1. -/
inductive Fate
  | missing
  | run
  | signal (n : Nat) (committed : Bool)
  deriving DecidableEq

/-- An active queue: its name, its waiting jobs in the order of the scheduling, what happens to its scheduler. -/
structure Que where
  name : String
  waiting : List Kao.Job
  fate : Fate

/-- The settings of the quotas when `Quotas.enable` was not called (oar/kao/quotas.py:510-518). -/
def noQuotas : Kao.Ctx := ⟨⟨false, [], ["*"], ∅⟩, none⟩

/-- The rows of a query on the Gantt with `order_by(Job.start_time, Job.id)` (oar/lib/job_handling.py:488, 518) when the Gantt has dates of waiting jobs: the scheduler of a queue sets the
attribute `start_time` of the rows of the jobs it places, and this column is written in the same transaction as the Gantt (oar/lib/job_handling.py:681-683); for a job that occupies
resources, the date in the Gantt is its `start_time` as well (`current`). Hence both dates are the same: the model sorts by the date in the Gantt and leaves the column out. -/
def sortedP (rows : List Row) : List Row := pySort (fun r : Row => r.start) (pySort (fun r : Row => r.job.id) rows)

/-- Models the process of the scheduler of a queue: `main` and `schedule_cycle` (oar/kao/kamelot.py:142-289): the tables written; `none`: an exception. With quotas (`QUOTAS=yes`) `main`
calls `plt.resource_set()` without the session, which raises (lines 274-275; oar/kao/platform.py:31-32, oar/lib/resource.py:17-27). -/
def child (quotas : Bool) (s : RS) (sec now : Int) (q : Que) (db : DB) : Option DB :=
  if quotas then none
  else if q.waiting = [] then some db
  else match initial noQuotas s now with
    | none => none
    | some (ctx, ss) =>
      match (extract s sec (sortedP (join db))).mapM toJob with
      | none => none
      | some js =>
        match (if js = [] then some [("default", ss)] else Kao.setPrev ctx [("default", ss)] js sec now (decide (q.name ≠ "besteffort")) false) with
        | none => none
        | some sets =>
          match Kao.schedule (hyOf s) sec (q.waiting.map (·.id)) ⟨ctx, sets, q.waiting⟩ with
          | none => none
          | some st => saveRows s db (st.jobs.filterMap (toE db))

/-- The tables after the process, given what it writes when it is not stopped, and the value of `child.wait()`: the exit code, or the opposite of the signal; `none`: no process. An
exception of Python gives the exit code 1. -/
def process (r : Option DB) (db : DB) : Fate → DB × Option Int
  | .missing => (db, none)
  | .run => match r with
    | some db' => (db', some 0)
    | none => (db, some 1)
  | .signal n late => (if late then r.getD db else db, some (-(n + 1 : Int)))

/-- Whether the queue is stopped (oar/kao/meta_sched.py:686-734): `rc >> 8`, `rc & 0x7F` and `bool(rc & 0x80)`, where the two last ones are the remainder modulo 128 and the bit of
weight 128. -/
def mustStop : Option Int → Bool
  | none => true
  | some rc => decide (rc % 128 ≠ 0) || decide (rc / 128 % 2 ≠ 0) || decide (rc >>> (8 : Nat) ≠ 0)

/-- One active queue: `call_external_scheduler` (oar/kao/meta_sched.py:632-744), then `handle_waiting_reservation_jobs` (lines 994-1001). The result: the tables, the timelines of the
meta-scheduler (lines 731-745), the queues stopped. -/
def extQueue (cf : Conf) (quotas : Bool) (ctx : Kao.Ctx) (s : RS) (now : Int) (q : Que) (x : DB × List (String × Kao.SlotSet) × List String) :
    Option (DB × List (String × Kao.SlotSet) × List String) :=
  let y := process (child quotas s cf.sec now q x.1) x.1 q.fate
  let stopped := if mustStop y.2 then x.2.2 ++ [q.name] else x.2.2
  match (extract s cf.sec (sortedP ((join y.1).filter (fun r => r.job.queue == q.name && r.job.state == "Waiting" && r.job.reservation == "None")))).mapM toJob with
  | none => none
  | some js =>
    match (if js = [] then some x.2.1 else Kao.setPrev ctx x.2.1 js cf.sec now (decide (q.name ≠ "besteffort")) false) with
    | none => none
    | some sets => (waitingARs s cf.timeout now y.1 (waitingResv s cf.sec q.name y.1)).map (fun db => (db, sets, stopped))

/-- The active queues in order (oar/kao/meta_sched.py:905-1001). -/
def extQueues (cf : Conf) (quotas : Bool) (ctx : Kao.Ctx) (s : RS) (now : Int) :
    List Que → DB × List (String × Kao.SlotSet) × List String → Option (DB × List (String × Kao.SlotSet) × List String)
  | [], x => some x
  | q :: qs, x => (extQueue cf quotas ctx s now q x).bind (extQueues cf quotas ctx s now qs)

/-- Models `meta_schedule` in external mode (oar/kao/meta_sched.py:845-1063): the tables, the exit code, the names of the queues stopped; `none`: an exception of the meta-scheduler. -/
def extRound (cf : Conf) (quotas : Bool) (ctx : Kao.Ctx) (s : RS) (ord : List Row → List Row) (qs : List Que) (now : Int) (db : DB) : Option (DB × Int × List String) :=
  match init ctx s cf.sec now db with
  | none => none
  | some (db1, ctx1, sets, sched, _) =>
    match extQueues cf quotas ctx1 s now qs (db1, sets, []) with
    | none => none
    | some (db2, _, stopped) => (launchRound s cf.sec now (ord ((join db2).filter (toLaunchRow (now + cf.kill)))) sched db2).map (fun y => (y.1, y.2, stopped))

end Oar.Round
