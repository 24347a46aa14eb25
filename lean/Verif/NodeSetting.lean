import Verif.Resources
import Verif.Tools
import Verif.Cli

/-!
# Model of the command oarnodesetting

`oar/cli/oarnodesetting.py` on the tables of the resources (Resources). The texts of the messages are not modelled, only their exit values. The
options `--version` and `--last-property-value`, that only read, are left out. The result of the SQL clause, the lines of the
file, the name of the local host, the attributes of the class of the resources and the jobs that end in time are inputs. Nothing
else writes the database during the command.
-/

namespace Oar.NodeSetting

open Oar.Res Oar.Tools
open Oar.Cli (Ret)

/-- What the command finds: the date, the local host, the attributes of `Resource` (oar/lib/models.py:344-365 and the properties of the
table), the jobs seen ended before the timeout, the next identifier of a resource. -/
structure World where
  now : Int
  localHost : String
  cols : List String
  ended : Nat → Bool
  fresh : Nat

/-- The columns of numbers written by the command (oar/lib/models.py:357-363) or by the users. -/
def intCols : List String := ["id", "available_upto", "last_available_upto"]

/-- The text of a number. -/
def intText (n : Int) : String := String.ofList (str n)

/-- The value stored in a column for a text; `none`: the database refuses it. -/
def norm (p v : String) : Option String := if p ∈ intCols then (pyInt v.toList).map intText else some v

/-- The value of a column (the attribute `id` is the column `resource_id`, oar/lib/models.py:347). -/
def col (r : Res) (p : String) : Option String :=
  if p = "id" then some (intText r.id) else if p = "network_address" then some r.host else if p = "type" then some r.rtype
  else r.prop p

/-- Write a column, for a value given by `norm`. -/
def setCol (r : Res) (p v : String) : Res :=
  if p = "id" then { r with id := ((pyInt v.toList).getD 0).toNat } else if p = "network_address" then { r with host := v }
  else if p = "type" then { r with rtype := v } else { r with prop := fun q => if q = p then some v else r.prop q }

/-- The resources changed (oar/lib/resource_handling.py:131-149). -/
def targets (w : RDB) (sel : Res → Bool) (p v : String) : List Nat :=
  (w.res.filter (fun r => sel r && decide (col r p ≠ some v))).map Res.id

/-- Models `set_resources_property` (oar/lib/resource_handling.py:126-184); `none`: an exception (unknown attribute, value refused by
the database, identifier already used), the table is not changed. -/
def setProperty (e : World) (w : RDB) (sel : Res → Bool) (p v : String) : Option RDB :=
  if p ∉ e.cols then none
  else
    match norm p v with
    | none => none
    | some nv =>
      let ids := targets w sel p nv
      if ids = [] then some w
      else if p = "id" ∧ (1 < ids.length ∨ w.res.any (fun r => intText r.id == nv)) then none
      else some { w.upd (fun r => decide (r.id ∈ ids)) (fun r => setCol r p nv) with
        rlog := closeLogs e.now (fun l => l.attr == p && decide (l.rid ∈ ids)) w.rlog ++ ids.map (fun i => ⟨i, p, v, e.now, 0⟩) }

/-- `prop.lstrip().split("=")` with two parts (oar/cli/oarnodesetting.py:44-46). -/
def parseProp (s : String) : Option (String × String) :=
  match split '=' (s.toList.dropWhile Char.isWhitespace) with
  | [n, v] => some (String.ofList n, String.ofList v)
  | _ => none

/-- The variables of the command: the tables, the exit values in order, the notifications sent, the jobs waited for; `raised`: it stopped
on an exception. -/
structure St where
  w : RDB
  exits : List Int := []
  sent : List String := []
  waited : List Nat := []
  raised : Bool := false

/-- A message or an exit value. -/
def St.say (s : St) (l : List Int) : St := { s with exits := s.exits ++ l }

/-- `tools.notify_almighty`. -/
def St.tell (s : St) (m : String) : St := { s with sent := s.sent ++ [m] }

/-- One property (oar/cli/oarnodesetting.py:43-62). -/
def propStep (e : World) (sel : Res → Bool) (s : St) (p : String) : St :=
  if s.raised then s
  else
    match parseProp p with
    | none => s.say [0, 10]
    | some (n, v) =>
      if n ∈ systemProps then s.say [0, 8]
      else
        match setProperty e s.w sel n v with
        | none => { s.say [0] with raised := true }
        | some w' => { s.say [0, 0] with w := w' }

/-- Models `set_resources_properties` (oar/cli/oarnodesetting.py:42-62). -/
def setProperties (e : World) (sel : Res → Bool) (s : St) (ps : List String) : St := ps.foldl (propStep e sel) s

/-- Models `wait_end_of_running_jobs` (oar/cli/oarnodesetting.py:65-89). -/
def waitJobs (e : World) (s : St) (jobs : List Nat) : St :=
  if s.raised then s
  else { s with waited := s.waited ++ jobs, exits := s.exits ++ jobs.flatMap (fun j => [0, if e.ended j then 0 else 11]) }

/-- The selection by identifiers (oar/lib/resource_handling.py:135). -/
def byIds (ids : List Nat) (r : Res) : Bool := decide (r.id ∈ ids)

/-- The selection by hosts (oar/lib/resource_handling.py:133). -/
def byHosts (hosts : List String) (r : Res) : Bool := decide (r.host ∈ hosts)

/-- The text of a number column read by Python, `None` for NULL. -/
def shown (v : Option String) : String := v.getD "None"

/-- One resource put in maintenance or out of it (oar/cli/oarnodesetting.py:94-135); an unknown resource raises in `get_resource`
(oar/lib/resource_handling.py:58-59). -/
def maintainOne (e : World) (on noWait : Bool) (s : St) (rid : Nat) : St :=
  if s.raised then s
  else
    match s.w.res.find? (fun r => r.id == rid) with
    | none => { s with raised := true }
    | some r =>
      let s1 := { s.say [0] with w := logMaintenance s.w e.now rid on }
      if on then
        let ps := "available_upto=0" :: if r.prop "available_upto" ≠ some "0" then ["last_available_upto=" ++ shown (r.prop "available_upto")] else []
        let s2 := setProperties e (byIds [rid]) s1 ps
        if s2.raised then s2
        else
          let s3 := { s2 with w := setNext s2.w rid "Absent" }.tell "ChState"
          if noWait then s3 else waitJobs e (s3.say [0]) (jobsToFrag s3.w rid)
      else
        let ps := if r.prop "last_available_upto" ≠ some "0" then ["available_upto=" ++ shown (r.prop "last_available_upto")] else []
        let s2 := setProperties e (byIds [rid]) s1 ps
        if s2.raised then s2
        else { s2 with w := setNext s2.w rid "Alive" }.tell "ChState"

/-- Models `set_maintenance` (oar/cli/oarnodesetting.py:92-135). -/
def setMaintenance (e : World) (on noWait : Bool) (s : St) (ids : List Nat) : St := ids.foldl (maintainOne e on noWait) s

/-- Models `get_all_resources_on_node` (oar/lib/node.py:31-36). -/
def resourcesOn (w : RDB) (host : String) : List Nat := (w.res.filter (fun r => r.host == host)).map Res.id

/-- Models `get_node_job_to_frag` (oar/lib/node.py:365-388); the rows of the join are the jobs, without repetition. -/
def nodeJobs (w : RDB) (host : String) : List Nat :=
  (w.db.jobs.filter (fun j =>
    w.assigned.any (fun a => a.current && w.res.any (fun r => r.host == host && r.id == a.rid) &&
      w.molds.any (fun m => m.1 == a.mold && m.2 == j.id)) &&
    !(j.state == "Terminated") && !(j.state == "Error") && !decide ("cosystem" ∈ j.types) && !decide ("noop" ∈ j.types))).map
    Jobs.JobRow.id

/-- Models `set_resources_nextState` (oar/lib/resource_handling.py:111-123). -/
def setNextAll (w : RDB) (ids : List Nat) (st : String) : RDB :=
  w.upd (fun r => decide (r.id ∈ ids)) (fun r => { r with next := st, nextFinaud := false })

/-- The arguments. An empty text is an absent option. `file`: `none` no file, `some none` a file that cannot be read, `some (some lines)`
its lines as Python gives them, with their end of line. `sql`: the resources selected by the clause. -/
structure Args where
  resources : List Nat := []
  hosts : List String := []
  file : Option (Option (List String)) := none
  sql : Option (List Nat) := none
  add : Bool := false
  state : Option String := none
  maintenance : Option String := none
  drain : Option String := none
  props : List String := []
  noWait : Bool := false

/-- What the command did; `final` is the exit status set by `usage`. -/
structure Out where
  w : RDB
  ret : Ret
  sent : List String := []
  waited : List Nat := []
  raised : Bool := false

/-- The tests of the arguments (oar/cli/oarnodesetting.py:162-182): `true` is a refusal with the usage and the exit status 1. -/
def badArgs (a : Args) : Bool :=
  (a.props.isEmpty && a.state.isNone && !a.add && a.maintenance.isNone && a.drain.isNone) ||
  (a.state.any (fun x => x != "Alive" && x != "Absent" && x != "Dead")) ||
  (a.maintenance.any (fun x => x != "on" && x != "off")) || (a.drain.any (fun x => x != "on" && x != "off"))

/-- The addition of the hosts (oar/cli/oarnodesetting.py:231-238): the identifiers follow one another. -/
def addHosts (e : World) (st : String) : List String → Nat → RDB → RDB × Nat
  | [], n, w => (w, n)
  | h :: hs, n, w => addHosts e st hs (n + 1) (addRes w e.now n h st)

/-- The state of resources given by their identifiers (oar/cli/oarnodesetting.py:249-270). -/
def stateIds (e : World) (noWait : Bool) (s : St) (ids : List Nat) (st : String) : St :=
  let s1 := ({ s with w := setNextAll s.w ids st }.say [0]).tell "ChState"
  if (st = "Dead" ∨ st = "Absent") ∧ noWait = false then
    ids.foldl (fun s i => waitJobs e (s.say [0]) (jobsToFrag s.w i)) s1
  else if st = "Alive" then s1.say [0] else s1

/-- The hosts found (oar/cli/oarnodesetting.py:289-296). -/
def hostsKnown (w : RDB) (hosts : List String) : List String := hosts.filter (fun h => w.res.any (fun r => r.host == h))

/-- The state of hosts (oar/cli/oarnodesetting.py:287-303): the loop of the waits uses the variable of the previous loop, the last host given. -/
def stateHosts (e : World) (noWait : Bool) (s : St) (hosts : List String) (st : String) : St :=
  let s1 := ({ s with w := hosts.foldl (fun w h => setNodeNext w h st) s.w }.say (hosts.map (fun _ => 0))).tell "ChState"
  if (st = "Dead" ∨ st = "Absent") ∧ noWait = false then
    (hostsKnown s.w hosts).foldl (fun s' _ => waitJobs e (s'.say [0]) (nodeJobs s'.w (hosts.getLast?.getD ""))) s1
  else s1

/-- The body when no resource is added (oar/cli/oarnodesetting.py:247-303). -/
def change (e : World) (a : Args) (ids : List Nat) (hosts : List String) (s : St) : St :=
  if ids ≠ [] then
    let s1 := match a.state with
      | some st => stateIds e a.noWait s ids st
      | none => s
    match a.maintenance with
    | some m => setMaintenance e (m == "on") a.noWait s1 ids
    | none => s1
  else
    let s1 := match a.maintenance with
      | some m => setMaintenance e (m == "on") a.noWait s (hosts.flatMap (resourcesOn s.w))
      | none => s
    match a.state with
    | some st => if s1.raised then s1 else stateHosts e a.noWait s1 hosts st
    | none => s1

/-- The properties with the one of the drain (oar/cli/oarnodesetting.py:305-309). -/
def allProps (a : Args) : List String :=
  a.props ++ match a.drain with
    | some d => [if d = "on" then "drain=YES" else "drain=NO"]
    | none => []

/-- The end of the command (oar/cli/oarnodesetting.py:311-325). -/
def finish (e : World) (a : Args) (ids : List Nat) (hosts : List String) (tags : List String) (s : St) : Out :=
  let s1 := if s.raised ∨ allProps a = [] then s
    else
      let s' := setProperties e (if ids ≠ [] then byIds ids else byHosts hosts) s (allProps a)
      if s'.raised then s' else s'.tell "Term"
  let s2 := if s1.raised then s1 else tags.foldl St.tell s1
  ⟨s2.w, ⟨s2.exits, 0⟩, s2.sent, s2.waited, s2.raised⟩

/-- Models `oarnodesetting` (oar/cli/oarnodesetting.py:138-325). The result of a clause replaces the resources given; a clause without
result ends the command; a file that cannot be read raises, a list being added to the tuple of the hosts (lines 193-202). -/
def run (e : World) (a : Args) (w : RDB) : Out :=
  if badArgs a then { w := w, ret := ⟨[0], 1⟩ }
  else if a.sql = some [] then { w := w, ret := ⟨[0], 0⟩ }
  else if a.file = some none then { w := w, ret := ⟨[0], 0⟩, raised := true }
  else
    let ids := a.sql.getD a.resources
    let given := a.hosts ++ (a.file.getD none).getD []
    if a.add = true ∧ ids ≠ [] then { w := w, ret := ⟨[0], 1⟩ }
    else
      let hosts := if given = [] then [e.localHost] else given
      if a.add then
        let r := addHosts e (a.state.getD "Alive") hosts e.fresh w
        finish e a [r.2 - 1] hosts ["ChState", "Term"] { w := r.1, exits := hosts.map (fun _ => 0) }
      else finish e a ids hosts [] (change e a ids hosts { w := w })

end Oar.NodeSetting
