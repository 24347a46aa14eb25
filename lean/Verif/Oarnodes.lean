import Verif.Basic

/-!
# Model of `oar/cli/oarnodes.py`

Not modelled: the drawing of the tables and bars, colours, JSON and YAML texts, the natural order of the names in the summary (ClusterShell), the rewriting of `sys.argv` for `-e` (the same as
the one of oarstat for `-u`, C92), `--version`.
-/

namespace Oar.Oarnodes

/-- A row of the table of resources (oar/lib/models.py:344-365). `props` are its columns in the order of the table, as texts (`none`: NULL). -/
structure Res where
  id : Nat
  host : String
  state : String
  upto : Int
  props : List (String × Option String)
  deriving DecidableEq, Repr

/-- An event with its hosts (tables event_logs and event_log_hostnames, oar/lib/event.py:119-123). -/
structure Ev where
  id : Nat
  date : Int
  hosts : List String
  deriving DecidableEq, Repr

/-- What the command reads. `resources` is in the order of the ids (every query is ordered by `Resource.id`); `jobs` are the jobs with their state and the resources of their assigned moldable
description; `columns` are the columns of the table of resources; `now` is the date of the database. -/
structure DB where
  resources : List Res
  jobs : List (Nat × String × List Nat)
  events : List Ev
  columns : List String
  now : Int

/-- `get_resources_for_job` (oar/cli/oarnodes.py:54-65): the running jobs of a resource. -/
def jobsOf (db : DB) (r : Nat) : List Nat := (db.jobs.filter (fun j => j.2.1 == "Running" && j.2.2.contains r)).map (·.1)

/-- `get_resources_grouped_by_network_address` (oar/cli/oarnodes.py:68-79): the resources of each of the hosts, a host without resource has no entry. -/
def grouped (db : DB) (hosts : List String) : List (String × List Res) :=
  ((db.resources.map (·.host)).filter (fun h => hosts.contains h)).eraseDups.map (fun h => (h, db.resources.filter (fun r => r.host == h)))

/-- `get_resources_of_nodes` (oar/lib/node.py:39-47). -/
def ofNodes (db : DB) (hosts : List String) : List Res := db.resources.filter (fun r => hosts.contains r.host)

/-- `get_resources_from_ids` (oar/lib/resource_handling.py:62-68). -/
def ofIds (db : DB) (ids : List Nat) : List Res := db.resources.filter (fun r => ids.contains r.id)

/-- `get_all_network_address` (oar/lib/node.py:391-395): `SELECT DISTINCT`. -/
def allHosts (db : DB) : List String := (db.resources.map (·.host)).eraseDups

/-- The state shown by `get_resources_state` (oar/lib/resource_handling.py:502-511). -/
def standby (now : Int) (r : Res) : String := if r.state = "Absent" ∧ r.upto ≥ now then "Standby" else r.state

/-- `get_resources_state` (oar/lib/resource_handling.py:492-512). -/
def states (db : DB) (ids : List Nat) : List (Nat × String) := (ofIds db ids).map (fun r => (r.id, standby db.now r))

/-- `get_resources_state_for_host` (oar/lib/node.py:398-406). -/
def statesOfHost (db : DB) (h : String) : List (Nat × String) := states db ((db.resources.filter (fun r => r.host == h)).map (·.id))

/-- Sort by decreasing date: `order_by(desc(EventLog.date))` (oar/lib/event.py:125-129). -/
def byDate (l : List Ev) : List Ev := l.mergeSort (fun a b => decide (b.date ≤ a.date))

/-- `get_events_for_hostname_from` (oar/lib/event.py:113-131); `since`: the date given, `none` for the 30 last ones. -/
def eventsOf (db : DB) (host : String) (since : Option Int) : List Ev :=
  match since with
  | some d => byDate (db.events.filter (fun e => e.hosts.contains host && decide (e.date ≥ d)))
  | none => (byDate (db.events.filter (fun e => e.hosts.contains host))).take 30

/-- A line of the summary. -/
structure Row where
  node : String
  status : String
  jobs : List Nat
  free : Int
  total : Nat
  deriving DecidableEq, Repr

/-- One turn of the loop of `cluster_summary` (oar/cli/oarnodes.py:297-360). -/
def row (db : DB) (g : String × List Res) : Option Row :=
  match g.2 with
  | [] => none
  | first :: _ =>
    let busy := (g.2.filter (fun r => !(jobsOf db r.id).isEmpty)).length
    let absent := (g.2.filter (fun r => (jobsOf db r.id).isEmpty && r.state != "Alive")).length
    some ⟨g.1, standby db.now first, (g.2.flatMap (fun r => jobsOf db r.id)).eraseDups, (g.2.length : Int) - busy - absent, g.2.length⟩

/-- `cluster_summary` (oar/cli/oarnodes.py:283-381): `NodeSet` drops the empty name. -/
def summary (db : DB) (hosts : List String) : List Row := ((grouped db hosts).filter (fun g => g.1 != "")).filterMap (row db)

/-- `cluster_details` without the jobs (oar/cli/oarnodes.py:384-430, called with `show_jobs=False`): the state of each resource of each node. -/
def details (db : DB) (hosts : List String) : List (String × List (Nat × String)) :=
  ((grouped db hosts).filter (fun g => g.1 != "")).map (fun g => (g.1, g.2.map (fun r => (r.id, r.state))))

/-- `check_resource_system_property` (oar/lib/tools.py:781-799). -/
def system (p : String) : Bool :=
  ["resource_id", "state", "state_num", "next_state", "finaud_decision", "next_finaud_decision", "last_job_date", "suspended_jobs", "expiry_date", "scheduler_priority"].contains p

/-- The columns of properties of `print_resources_table` (oar/cli/oarnodes.py:205-219). -/
def shownProps (db : DB) (asked : List String) (all : Bool) : List String :=
  if asked ≠ [] ∨ all = true then db.columns.filter (fun c => !system c && (asked.contains c || all)) else []

/-- A line of `print_resources_table` (oar/cli/oarnodes.py:221-238): id, host, state, date, properties (an empty text for NULL). -/
def line (props : List String) (r : Res) : Nat × String × String × Int × List String :=
  (r.id, r.host, r.state, r.upto, props.map (fun p => ((r.props.lookup p).join).getD ""))

/-- What the command shows. -/
inductive Out
  | events (l : List (String × List Ev))
  | summary (l : List Row)
  | states (l : List (Nat × String))
  | hostStates (l : List (String × List (Nat × String)))
  | details (l : List (String × List (Nat × String)))
  | hosts (l : List String)
  | table (props : List String) (l : List (Nat × String × String × Int × List String))
  | dicts (l : List Res)
  | noNode

/-- The options. `sql`: what the condition (not an empty text) says of a resource; `events`: `some none` for `-e` without a date; `format`: `-J` or `-Y`. -/
structure Opts where
  nodes : List String := []
  props : List String := []
  allProps : Bool := false
  ids : List Nat := []
  state : Bool := false
  summary : Bool := false
  list : Bool := false
  events : Option (Option Int) := none
  sql : Option (Res → Bool) := none
  format : Bool := false

/-- The nodes used: all of them with `-l`, or when neither nodes nor resources nor a condition are given (oar/cli/oarnodes.py:462-463). -/
def nodesOf (db : DB) (o : Opts) : List String :=
  if (o.nodes = [] ∧ ¬ (o.ids ≠ [] ∨ o.sql.isSome)) ∨ o.list = true then allHosts db else o.nodes

/-- The resources asked, by their id or by a condition (oar/cli/oarnodes.py:465-472). -/
def idsOf (db : DB) (o : Opts) : List Nat :=
  match o.sql with
  | none => o.ids
  | some c => o.ids ++ (db.resources.filter c).map (·.id)

/-- The warning when no resource satisfies the condition (oar/cli/oarnodes.py:467-471). -/
def warns (db : DB) (o : Opts) : Bool :=
  match o.sql with
  | none => false
  | some c => (db.resources.filter c).isEmpty

/-- `print_resources_nodes_infos` (oar/cli/oarnodes.py:254-280). -/
def infos (db : DB) (o : Opts) (rs : List Res) : Out :=
  if o.format then .dicts rs else .table (shownProps db o.props o.allProps) (rs.map (line (shownProps db o.props o.allProps)))

/-- Models `oarnodes` (oar/cli/oarnodes.py:433-502): what is shown and the exit status (a warning has the exit value 0). -/
def oarnodes (db : DB) (o : Opts) : Out × Nat :=
  let nodes := nodesOf db o
  let ids := idsOf db o
  (match o.events with
    | some d => .events (nodes.map (fun h => (h, eventsOf db h d)))
    | none =>
      if o.summary then .summary (summary db nodes)
      else if o.state then
        if ids ≠ [] then .states (states db ids)
        else if o.format then .hostStates (nodes.map (fun h => (h, statesOfHost db h)))
        else .details (details db nodes)
      else if o.list then .hosts nodes
      else if ids ≠ [] ∨ o.sql.isSome then infos db o (ofIds db ids)
      else if nodes ≠ [] then infos db o (ofNodes db nodes)
      else .noNode, 0)

end Oar.Oarnodes
