/-!
# The current rows of the jobs and their archiving (C107)

The rows written for a job carry an index, CURRENT or LOG (`cur`: CURRENT); most of the queries of the server read only the rows CURRENT. The rows become LOG at the end of
the job (`log_job`) or, for the nodes that failed at the start of a job, before (`archive_some_moldable_job_nodes`).
-/

namespace Oar.Archive

/-- A job: its identifier, its state, the moldable it was launched with, 0 before (oar/lib/models.py:368-406). -/
structure Job where
  id : Nat
  state : String
  mold : Nat := 0
  deriving DecidableEq, Repr

/-- A row of `moldable_job_descriptions` (oar/lib/models.py:409-416). -/
structure Mold where
  id : Nat
  job : Nat
  cur : Bool := true
  deriving DecidableEq, Repr

/-- A row of `job_resource_groups` (oar/lib/models.py:314-323). -/
structure Group where
  id : Nat
  mold : Nat
  cur : Bool := true
  deriving DecidableEq, Repr

/-- A row of `job_resource_descriptions` (oar/lib/models.py:295-312). -/
structure Desc where
  group : Nat
  cur : Bool := true
  deriving DecidableEq, Repr

/-- A row of `job_types` (oar/lib/models.py:335-342). -/
structure Typ where
  job : Nat
  name : String
  cur : Bool := true
  deriving DecidableEq, Repr

/-- A row of `job_dependencies` (oar/lib/models.py:279-293). -/
structure Dep where
  job : Nat
  required : Nat
  cur : Bool := true
  deriving DecidableEq, Repr

/-- A row of `assigned_resources`, its key is (moldable, resource) (oar/lib/models.py:132-147). -/
structure Asg where
  mold : Nat
  rid : Nat
  cur : Bool := true
  deriving DecidableEq, Repr

/-- A resource: identifier, host and type (oar/lib/models.py:344-349). -/
structure Res where
  id : Nat
  host : String
  type : String := "default"
  deriving DecidableEq, Repr

/-- The tables. `gantt`: the rows (moldable, resource) of the prediction of the scheduler. -/
structure DB where
  jobs : List Job := []
  molds : List Mold := []
  groups : List Group := []
  descs : List Desc := []
  types : List Typ := []
  deps : List Dep := []
  asg : List Asg := []
  gantt : List (Nat × Nat) := []
  res : List Res := []
  deriving DecidableEq, Repr

/-- The kind of database: the dialect of the connection and `DB_TYPE` of the configuration. -/
structure Base where
  sqlite : Bool := false
  pg : Bool := true
  deriving DecidableEq, Repr

/-- Models the rows written by a submission (oar/lib/submission.py:964-1119): the index of the rows is left to its default, CURRENT; the identifiers are given by the
database. -/
def submit (db : DB) (jid : Nat) (state : String) (molds : List Nat) (groups : List (Nat × Nat)) (descs : List Nat) (types : List String) (deps : List Nat) : DB :=
  { db with
    jobs := db.jobs ++ [{ id := jid, state := state }]
    molds := db.molds ++ molds.map (fun m => { id := m, job := jid })
    groups := db.groups ++ groups.map (fun g => { id := g.1, mold := g.2 })
    descs := db.descs ++ descs.map (fun g => { group := g })
    types := db.types ++ types.map (fun t => { job := jid, name := t })
    deps := db.deps ++ deps.map (fun d => { job := jid, required := d }) }

/-- Models `log_job` (oar/lib/job_handling.py:1646-1690): nothing with sqlite; the five updates are one transaction. -/
def logJob (b : Base) (db : DB) (j : Job) : DB :=
  if b.sqlite then db
  else
    let molds := db.molds.map (fun m => if m.cur = true ∧ m.job = j.id then { m with cur := false } else m)
    { db with
      molds := molds
      descs := db.descs.map (fun d =>
        if db.groups.any (fun g => g.id == d.group && molds.any (fun m => m.id == g.mold && m.job == j.id)) then { d with cur := false } else d)
      groups := db.groups.map (fun g =>
        if g.cur = true ∧ molds.any (fun m => m.id == g.mold && m.job == j.id && !m.cur) = true then { g with cur := false } else g)
      types := db.types.map (fun t => if t.cur = true ∧ t.job = j.id then { t with cur := false } else t)
      deps := db.deps.map (fun d => if d.cur = true ∧ d.job = j.id then { d with cur := false } else d)
      asg := if j.mold ≠ 0 then db.asg.map (fun a => if a.cur = true ∧ a.mold = j.mold then { a with cur := false } else a) else db.asg }

/-- The states that `set_job_state` can leave (oar/lib/job_handling.py:1694-1705). -/
def leavable : List String :=
  ["toLaunch", "toError", "toAckReservation", "Launching", "Running", "Finishing", "Waiting", "Hold", "Suspended", "Resuming"]

/-- The first part of `set_job_state` (oar/lib/job_handling.py:1706-1717): the state is written and committed; `none`: the job is already in this state or ended. -/
def writeState (db : DB) (jid : Nat) (st : String) : Option DB :=
  if db.jobs.any (fun j => j.id == jid && decide (j.state ∈ leavable) && j.state != st) then
    some { db with jobs := db.jobs.map (fun j => if j.id = jid then { j with state := st } else j) }
  else none

/-- Models `set_job_state` (oar/lib/job_handling.py:1693-1814); only the writes of the tables of this model. -/
def setState (b : Base) (db : DB) (jid : Nat) (st : String) : DB :=
  match writeState db jid st with
  | none => db
  | some db1 =>
    if st = "Terminated" ∨ st = "Error" then
      match db1.jobs.find? (fun j => j.id == jid) with
      | none => db1
      | some j => logJob b db1 j
    else db1

/-- Models `set_job_start_time_assigned_moldable_id` (oar/lib/job_handling.py:774-782). -/
def setMold (db : DB) (jid mold : Nat) : DB :=
  { db with jobs := db.jobs.map (fun j => if j.id = jid then { j with mold := mold } else j) }

/-- The rows inserted by `add_resource_job_pairs` (oar/lib/job_handling.py:812-827). Without row in the prediction, the insertion of an empty list writes one row of default
values, (0, 0). -/
def pairRows (db : DB) (mold : Nat) : List (Nat × Nat) :=
  match db.gantt.filter (fun g => g.1 == mold) with
  | [] => [(0, 0)]
  | l => l

/-- Models `add_resource_job_pairs` (oar/lib/job_handling.py:812-828): `none`, a key is already used. -/
def addPairs (db : DB) (mold : Nat) : Option DB :=
  if (pairRows db mold).any (fun p => db.asg.any (fun a => a.mold == p.1 && a.rid == p.2)) then none
  else some { db with asg := db.asg ++ (pairRows db mold).map (fun p => { mold := p.1, rid := p.2 }) }

/-- Models `prepare_job_to_be_launched` (oar/kao/meta_sched.py:231-255): three transactions; `none`: an exception. -/
def prepare (b : Base) (db : DB) (jid mold : Nat) : Option DB :=
  match addPairs (setMold db jid mold) mold with
  | none => none
  | some db1 => some (setState b db1 jid "toLaunch")

/-- Models `archive_some_moldable_job_nodes` (oar/lib/job_handling.py:2661-2672). -/
def archiveNodes (b : Base) (db : DB) (mold : Nat) (hosts : List String) : DB :=
  if b.pg then
    { db with asg := db.asg.map (fun a =>
        if a.mold = mold ∧ db.res.any (fun r => r.id == a.rid && decide (r.host ∈ hosts)) = true then { a with cur := false } else a) }
  else db

/-! ## The queries -/

/-- The resources of a moldable, rows CURRENT only: models `get_current_assigned_job_resources` (oar/lib/resource_handling.py:253-262). -/
def currentResources (db : DB) (mold : Nat) : List Nat :=
  (db.asg.filter (fun a => a.cur && a.mold == mold)).flatMap (fun a => (db.res.filter (fun r => r.id == a.rid)).map Res.id)

/-- Models `get_job_current_hostnames` (oar/lib/job_handling.py:1590-1606) before `DISTINCT` and `ORDER BY`. -/
def hostRows (db : DB) (jid : Nat) : List String :=
  db.asg.flatMap (fun a =>
    if a.cur = true ∧ db.molds.any (fun m => m.cur && m.id == a.mold && m.job == jid) = true then
      (db.res.filter (fun r => r.id == a.rid && r.host != "" && r.type == "default")).map Res.host
    else [])

/-- The insertion in a sorted list without double: `DISTINCT` and `ORDER BY`. -/
def insertHost (h : String) : List String → List String
  | [] => [h]
  | x :: xs => if h = x then x :: xs else if h < x then h :: x :: xs else x :: insertHost h xs

/-- Models `get_job_current_hostnames` (oar/lib/job_handling.py:1590-1606). -/
def hostnames (db : DB) (jid : Nat) : List String := (hostRows db jid).foldl (fun acc h => insertHost h acc) []

/-- Models `get_current_assigned_nodes` (oar/lib/node.py:341-352), without its `DISTINCT`. -/
def assignedNodes (db : DB) : List String :=
  (db.asg.filter Asg.cur).flatMap (fun a => (db.res.filter (fun r => r.id == a.rid && r.type == "default")).map Res.host)

/-- The nodes that finaud tests when the occupied ones are skipped (oar/modules/finaud.py:48-55), among the nodes of the query. -/
def toCheck (db : DB) (nodes : List String) : List String := nodes.filter (fun n => decide (n ∉ assignedNodes db))

/-- Models `get_current_jobs_dependencies` (oar/lib/job_handling.py:721-741), for one of the jobs given: the required jobs with their states. -/
def dependencies (db : DB) (jid : Nat) : List (Nat × String) :=
  (db.deps.filter (fun d => d.cur && d.job == jid)).flatMap (fun d => (db.jobs.filter (fun j => j.id == d.required)).map (fun j => (d.required, j.state)))

/-- Models `get_current_moldable_job` (oar/lib/job_handling.py:1495-1503): `none`, `.one()` raises. -/
def currentMold (db : DB) (mold : Nat) : Option Mold :=
  match db.molds.filter (fun m => m.cur && m.id == mold) with
  | [m] => some m
  | _ => none

end Oar.Archive
