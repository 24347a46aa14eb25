import Verif.Greta
import Verif.Energy
import Verif.ShellQuotes

/-!
# Model of what Greta reads in the database and of what it asks

The queries of a cycle (`oar/lib/node.py`) and the launching of the commands (`oar/modules/greta.py`).
-/

namespace Oar.GretaAsk

open Oar.Greta Oar.Tools

/-- A row of `resources`; `upto` is `available_upto`. -/
structure Res where
  id : Nat
  net : String
  state : String
  next : String
  upto : Int
  deriving DecidableEq

/-- The tables: `assigned` (moldable, resource), `molds` (moldable, job), `jobs` (job, state). -/
structure Db where
  res : List Res
  assigned : List (Nat × Nat)
  molds : List (Nat × Nat)
  jobs : List (Nat × String)
  deriving DecidableEq

/-- The states of `get_alive_nodes_with_jobs` (oar/lib/node.py:158-168). -/
def occupying : List String := ["Waiting", "Hold", "toLaunch", "toError", "toAckReservation", "Launching", "Running", "Suspended", "Resuming"]

/-- Models `get_alive_nodes_with_jobs` (oar/lib/node.py:147-174). -/
def occupied (db : Db) : List String :=
  Energy.dedup ((db.res.filter (fun r => (r.state == "Alive" || r.next == "Alive") && db.assigned.any (fun a => r.id == a.2 &&
    db.molds.any (fun m => a.1 == m.1 && db.jobs.any (fun j => m.2 == j.1 && occupying.contains j.2))))).map Res.net)

/-- Models `get_nodes_that_can_be_waked_up` (oar/lib/node.py:177-185). -/
def canWake (db : Db) (date : Int) : List String := Energy.dedup ((db.res.filter (fun r => r.state == "Absent" && decide (r.upto > date))).map Res.net)

/-- `DISTINCT` on the rows. -/
def distinct : List (String × String × String) → List (String × String × String)
  | [] => []
  | a :: l => a :: (distinct l).filter (· ≠ a)

/-- Models `get_nodes_with_given_sql` (oar/lib/node.py:188-196); the properties, written in SQL, are a predicate on the rows. -/
def nodesWith (db : Db) (p : Res → Bool) : List (String × String × String) := distinct ((db.res.filter p).map (fun r => (r.net, r.state, r.next)))

/-- What a cycle reads (oar/modules/greta.py:283-297, 371-373): `classes` are the numbers of nodes to keep and the properties of ENERGY_SAVING_NODES_KEEPALIVE. The queries are made at the
same moment. -/
def view (db : Db) (classes : List (Nat × (Res → Bool))) (now : Int) : View :=
  ⟨classes.map (fun c => (c.1, nodesWith db c.2)), occupied db, canWake db now, (nodesWith db (fun r => r.state == "Alive")).map (·.1), now⟩

/-- A row of `event_logs` with those of `event_log_hostnames`; the job is 0. -/
structure Ev where
  kind : String
  date : Int
  description : List Char
  hosts : List String
  deriving DecidableEq

/-- Models `add_new_event_with_host` (oar/lib/event.py:27-47); the order of the set of the hosts is not known. -/
def newEvent (kind : String) (date : Int) (description : List Char) (hosts : List String) : Ev := ⟨kind, date, description.take 255, Energy.dedup hosts⟩

/-- The nodes of one kind of command (oar/modules/greta.py:581-586). -/
def nodesOf (c : Cmd) (cmds : List (Cmd × String)) : List String := (cmds.filter (fun x => x.1 == c)).map (·.2)

/-- The variable `node` after the first loop (oar/modules/greta.py:581-582): the node of the last command. -/
def lastNode (cmds : List (Cmd × String)) : String := (cmds.getLast?.map (·.2)).getD ""

/-- The events of `add_commands_toLaunch` (oar/modules/greta.py:577-600), both written in the same second. -/
def recorded (now : Int) (cmds : List (Cmd × String)) : List Ev :=
  (if nodesOf .halt cmds ≠ [] then [newEvent "HALT_NODE" now (txt "Node " ++ (lastNode cmds).toList ++ txt " halt request") (nodesOf .halt cmds)] else []) ++
  (if nodesOf .wakeup cmds ≠ [] then [newEvent "WAKEUP_NODE" now (txt "Node " ++ (lastNode cmds).toList ++ txt " wake-up request") (nodesOf .wakeup cmds)] else [])

/-- The text given to the shell by `command_executor` (oar/modules/greta.py:549-562); `sleep` and `wake` are the commands of the configuration. -/
def commandText (sleep wake : List Char) (x : Cmd × String) : List Char :=
  txt "echo \"" ++ x.2.toList ++ txt "\" | " ++ (match x.1 with | .halt => sleep | .wakeup => wake)

/-- The commands started by `add_commands_toLaunch` (oar/modules/greta.py:602-614): one process for each. -/
def started (sleep wake : List Char) (cmds : List (Cmd × String)) : List (List Char) := cmds.map (commandText sleep wake)

/-- The events WAKEUP_NODE with a host, as `get_last_wake_up_date_of_node` reads them (oar/lib/node.py:134-144). -/
def wakesOf (evs : List Ev) : List (String × Int) := (evs.filter (fun e => e.kind == "WAKEUP_NODE")).flatMap (fun e => e.hosts.map (fun h => (h, e.date)))

end Oar.GretaAsk
