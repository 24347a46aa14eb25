import Verif.NodeChange

/-!
# Model of the states of the resources

`oar/lib/resource_handling.py`, `oar/lib/node.py`, `oar/modules/finaud.py`, the last part of `oar/modules/sarko.py` and of
`oar/modules/node_change_state.py`. The column `state_num` follows `state` and is not modelled.
-/

namespace Oar.Res

open Oar.Jobs (DB JobRow FragRow Event Env fragJob ncsEvents)

/-- A row of `resources` (oar/lib/models.py:344-365); `finaud`, `nextFinaud` are the YES/NO columns; `prop` gives the other
columns (properties), `none` for NULL. -/
structure Res where
  id : Nat
  host : String
  state : String
  finaud : Bool := false
  next : String := "UnChanged"
  nextFinaud : Bool := false
  rtype : String := "default"
  prop : String → Option String := fun _ => none

/-- A row of `resource_logs` (oar/lib/models.py:427-436); `stop = 0` while the value lasts. -/
structure RLog where
  rid : Nat
  attr : String
  value : String
  start : Int
  stop : Int
  deriving DecidableEq, Repr

/-- A row of `assigned_resources` (oar/lib/models.py:132-147); `current`: its index is "CURRENT" (else "LOG"). -/
structure Ass where
  mold : Nat
  rid : Nat
  current : Bool
  deriving DecidableEq, Repr

/-- The tables used here; `molds`: the rows (moldable, job) of `moldable_job_descriptions` of index "CURRENT". -/
structure RDB where
  res : List Res
  rlog : List RLog
  db : DB
  assigned : List Ass
  molds : List (Nat × Nat)

/-- The states of a resource (oar/lib/resource_handling.py:23). -/
def stateNames : List String := ["Alive", "Absent", "Suspected", "Dead"]

/-- `UPDATE resources SET ... WHERE c`. -/
def RDB.upd (w : RDB) (c : Res → Bool) (f : Res → Res) : RDB := { w with res := w.res.map (fun r => if c r then f r else r) }

/-- `UPDATE resource_logs SET date_stop = now WHERE date_stop = 0 AND c`. -/
def closeLogs (now : Int) (c : RLog → Bool) (l : List RLog) : List RLog :=
  l.map (fun r => if r.stop = 0 ∧ c r = true then { r with stop := now } else r)

/-- Models `add_resource` (oar/lib/resource_handling.py:28-55), for a fresh id. -/
def addRes (w : RDB) (now : Int) (rid : Nat) (host state : String) : RDB :=
  { w with res := w.res ++ [{ id := rid, host := host, state := state }], rlog := w.rlog ++ [⟨rid, "state", state, now, 0⟩] }

/-- Models the creation of a resource by the REST API (oar/api/routers/resource.py:140-165): no row in the log. -/
def apiCreate (w : RDB) (r : Res) : RDB := { w with res := w.res ++ [r] }

/-- Models `set_resource_state` (oar/lib/resource_handling.py:71-99), for one of the known states. -/
def setResState (w : RDB) (now : Int) (rid : Nat) (st : String) (fin : Bool) : RDB :=
  { w.upd (fun r => r.id == rid) (fun r => { r with state := st, finaud := fin }) with
    rlog := closeLogs now (fun l => l.attr == "state" && l.rid == rid) w.rlog ++ [⟨rid, "state", st, now, 0⟩] }

/-- Models `set_resource_nextState` (oar/lib/resource_handling.py:102-108). -/
def setNext (w : RDB) (rid : Nat) (st : String) : RDB :=
  w.upd (fun r => r.id == rid) (fun r => { r with next := st, nextFinaud := false })

/-- Models `set_node_nextState` (oar/lib/node.py:298-309). -/
def setNodeNext (w : RDB) (host st : String) : RDB :=
  w.upd (fun r => r.host == host) (fun r => { r with next := st, nextFinaud := false })

/-- Models `update_resource_nextFinaudDecision` (oar/lib/resource_handling.py:307-312). -/
def setNextFinaud (w : RDB) (rid : Nat) (fin : Bool) : RDB :=
  w.upd (fun r => r.id == rid) (fun r => { r with nextFinaud := fin })

/-- Models `update_node_nextFinaudDecision` (oar/lib/node.py:355-362). -/
def setNodeNextFinaud (w : RDB) (host : String) (fin : Bool) : RDB :=
  w.upd (fun r => r.host == host) (fun r => { r with nextFinaud := fin })

/-- The test of `set_node_state` when `state == "Suspect"` (oar/lib/node.py:205-216). -/
def suspectable (fin : Bool) (r : Res) : Bool := r.state == "Alive" || (!fin && r.state == "Suspected" && r.finaud)

/-- The log written by `set_node_state` (oar/lib/node.py:247-295). With PostgreSQL the open "state" intervals of the node are
closed; with SQLite those whose *attribute* is the name of the new state, that is none of them. -/
def nodeLog (pg : Bool) (w : RDB) (now : Int) (host st : String) : List RLog :=
  closeLogs now (fun l => (l.attr == if pg then "state" else st) && w.res.any (fun r => r.host == host && r.id == l.rid)) w.rlog
    ++ (w.res.filter (fun r => r.host == host)).map (fun r => ⟨r.id, "state", st, now, 0⟩)

/-- Models `set_node_state` (oar/lib/node.py:199-295); `none`: `KeyError` in `STATE2NUM[state]`, as for the state "Suspect"
tested by the function. -/
def setNodeState (pg : Bool) (w : RDB) (now : Int) (host st : String) (fin : Bool) : Option RDB :=
  if st = "Suspect" then
    if st ∈ stateNames then
      if w.res.any (fun r => r.host == host && suspectable fin r) then
        some { w.upd (fun r => r.host == host && suspectable fin r) (fun r => { r with state := st, finaud := fin }) with
                rlog := nodeLog pg w now host st }
      else some w
    else none
  else if st ∈ stateNames then
    some { w.upd (fun r => r.host == host) (fun r => { r with state := st, finaud := fin }) with rlog := nodeLog pg w now host st }
  else none

/-- The names of the columns that users cannot write (oar/lib/tools.py:781-799). -/
def systemProps : List String :=
  ["resource_id", "state", "state_num", "next_state", "finaud_decision", "next_finaud_decision", "last_job_date",
   "suspended_jobs", "expiry_date", "scheduler_priority"]

/-- The resources changed by `set_resources_property` (oar/lib/resource_handling.py:126-146): those selected whose value is
different or NULL. -/
def propTargets (w : RDB) (sel : Res → Bool) (p v : String) : List Nat :=
  (w.res.filter (fun r => sel r && r.prop p != some v)).map Res.id

/-- Models `set_resources_property` (oar/lib/resource_handling.py:126-184) with the test of its caller
(oar/cli/oarnodesetting.py:42-62). -/
def setProp (w : RDB) (now : Int) (sel : Res → Bool) (p v : String) : RDB :=
  if p ∈ systemProps then w
  else
    let ids := propTargets w sel p v
    { w.upd (fun r => decide (r.id ∈ ids)) (fun r => { r with prop := fun q => if q = p then some v else r.prop q }) with
      rlog := closeLogs now (fun l => l.attr == p && decide (l.rid ∈ ids)) w.rlog ++ ids.map (fun i => ⟨i, p, v, now, 0⟩) }

/-- Models `log_resource_maintenance_event` (oar/lib/resource_handling.py:453-478). -/
def logMaintenance (w : RDB) (now : Int) (rid : Nat) (on : Bool) : RDB :=
  if on then { w with rlog := w.rlog ++ [⟨rid, "maintenance", "on", now, 0⟩] }
  else { w with rlog := closeLogs now (fun l => l.attr == "maintenance" && l.rid == rid) w.rlog }

/-- Models `get_absent_suspected_resources_for_a_timeout` (oar/lib/resource_handling.py:295-304): the value of the state is
not tested. -/
def longStates (w : RDB) (now timeout : Int) : List Nat :=
  (w.rlog.filter (fun l => l.attr == "state" && decide (l.stop = 0) && decide (l.start + timeout < now))).map RLog.rid

/-- Models the last part of `Sarko.run` (oar/modules/sarko.py:221-237). -/
def sarkoDead (w : RDB) (now timeout : Int) : RDB :=
  if timeout > 0 then
    (longStates w now timeout).foldl (fun w rid => setNextFinaud (setNext w rid "Dead") rid true) w
  else w

/-- The condition of `get_finaud_nodes` (oar/lib/node.py:318-338), desktop computing put aside. -/
def finaudable (r : Res) : Bool :=
  (r.state == "Alive" || (r.state == "Suspected" && r.finaud)) && r.rtype == "default" && r.next == "UnChanged"

/-- The hosts of the current assignments, `get_current_assigned_nodes` (oar/lib/node.py:341-352). -/
def occupied (w : RDB) (host : String) : Bool :=
  w.assigned.any (fun a => a.current && w.res.any (fun r => r.id == a.rid && r.host == host && r.rtype == "default"))

/-- The treatment of one node by Finaud (oar/modules/finaud.py:64-95); `bad`: the node did not answer. -/
def finaudNode (bad : String → Bool) (w : RDB) (n : Res) : RDB :=
  if bad n.host = true ∧ n.state = "Alive" then
    { setNodeNextFinaud (setNodeNext w n.host "Suspected") n.host true with
      db := Jobs.addEventHosts w.db "FINAUD_ERROR" 0 [n.host] }
  else if bad n.host = false ∧ n.state = "Suspected" then
    { setNodeNextFinaud (setNodeNext w n.host "Alive") n.host true with
      db := Jobs.addEventHosts w.db "FINAUD_RECOVER" 0 [n.host] }
  else w

/-- `SELECT DISTINCT ON (network_address)`: the first resource of each host not already seen. -/
def firstOfHost (seen : List String) : List Res → List Res
  | [] => []
  | r :: rs => if r.host ∈ seen then firstOfHost seen rs else r :: firstOfHost (r.host :: seen) rs

/-- Models `Finaud.run` (oar/modules/finaud.py:30-97); `all`: option CHECK_NODES_WITH_RUNNING_JOB. -/
def finaudRun (w : RDB) (all : Bool) (bad : String → Bool) : RDB :=
  ((firstOfHost [] (w.res.filter finaudable)).filter (fun n => all || !occupied w n.host)).foldl (finaudNode bad) w

/-- Models `get_resource_job_to_frag` (oar/lib/resource_handling.py:422-444); the rows of the join are the jobs, without
repetition. -/
def jobsToFrag (w : RDB) (rid : Nat) : List Nat :=
  (w.db.jobs.filter (fun j =>
    w.assigned.any (fun a => a.current && a.rid == rid && w.molds.any (fun m => m.1 == a.mold && m.2 == j.id)) &&
    !(j.state == "Terminated") && !(j.state == "Error") && !decide ("cosystem" ∈ j.types) && !decide ("noop" ∈ j.types))).map
    JobRow.id

/-- The treatment of a resource with a requested state (oar/modules/node_change_state.py:336-374). -/
def changeOne (now : Int) (w : RDB) (rid : Nat) (next : String) : RDB :=
  match w.res.find? (fun r => r.id == rid) with
  | none => w
  | some r =>
    if r.state ≠ next then
      let w1 := setNext (setResState w now rid next r.nextFinaud) rid "UnChanged"
      if next = "Dead" ∨ next = "Absent" then
        { w1 with db := (jobsToFrag w1 rid).foldl (fun d i => (fragJob d now i "oar").2) w1.db }
      else w1
    else setNext w rid "UnChanged"

/-- `get_resources_change_state` (oar/lib/resource_handling.py:265-272). -/
def changing (w : RDB) : List (Nat × String) := (w.res.filter (fun r => r.next != "UnChanged")).map (fun r => (r.id, r.next))

/-- Models the treatment of the requested states (oar/modules/node_change_state.py:330-374). -/
def changeAll (now : Int) (w : RDB) : RDB := (changing w).foldl (fun w p => changeOne now w p.1 p.2) w

/-- Suspect the hosts found by the treatment of the events (oar/modules/node_change_state.py:209-223); done here after all the
events: their treatment does not read the states of the resources. -/
def suspectAll (pg : Bool) (now : Int) : List (String × Bool) → RDB → Option RDB
  | [], w => some w
  | (h, fin) :: hs, w =>
    match setNodeState pg w now h "Suspected" fin with
    | none => none
    | some w' => suspectAll pg now hs w'

/-- Models `NodeChangeState.run` (oar/modules/node_change_state.py:62-403). -/
def ncsRun (pg : Bool) (env : Env) (w : RDB) : Option RDB :=
  match ncsEvents env w.db with
  | none => none
  | some (db', hs) =>
    match suspectAll pg env.now hs { w with db := db' } with
    | none => none
    | some w' => some (changeAll env.now w')

/-- The jobs deleted with a resource (oar/lib/resource_handling.py:203-208). -/
def jobsOf (w : RDB) (rid : Nat) : List JobRow :=
  w.db.jobs.filter (fun j => w.assigned.any (fun a => a.rid == rid && a.mold == j.assigned))

/-- The deletions of `remove_resource` (oar/lib/resource_handling.py:209-232). -/
def removeRows (w : RDB) (rid : Nat) : RDB :=
  let js := jobsOf w rid
  { w with
    res := w.res.filter (fun r => r.id != rid)
    rlog := w.rlog.filter (fun l => l.rid != rid)
    assigned := w.assigned.filter (fun a => a.rid != rid && !js.any (fun j => j.assigned == a.mold))
    db := { w.db with
      jobs := w.db.jobs.filter (fun j => !js.any (fun k => k.id == j.id))
      events := w.db.events.filter (fun e => !js.any (fun k => k.id == e.jid))
      frags := w.db.frags.filter (fun f => !js.any (fun k => k.id == f.jid)) } }

/-- Models `remove_resource` (oar/lib/resource_handling.py:187-236): the code and the database; `none`: unknown resource
(`NoResultFound`). -/
def removeRes (w : RDB) (rid : Nat) (user : String) : Option (Nat × RDB) :=
  if user ≠ "oar" ∧ user ≠ "root" then some (4, w)
  else
    match w.res.find? (fun r => r.id == rid) with
    | none => none
    | some r => if r.state = "Dead" then some (0, removeRows w rid) else some (3, w)

end Oar.Res
