import Verif.Tools

/-!
# Model of the priorities of the resources

`update_current_scheduler_priority` (`oar/lib/resource_handling.py`), called by `set_job_state` (`oar/lib/job_handling.py`) and by
`oardel --besteffort` (`oar/cli/oardel.py`). The properties of the resources and the resources assigned to a job do not change during the history; every
level of the configuration is a property of the resources.
-/

namespace Oar.Priority

open Oar.Tools

/-- What does not change: `order` is SCHEDULER_PRIORITY_HIERARCHY_ORDER when it is set, `attr` the properties of the resources (`none`: NULL) under the names of the columns,
`assigned` the resources assigned to a job. -/
structure Env where
  order : Option (List Char)
  attr : List Char → Nat → Option String
  assigned : Nat → List Nat

/-- A job: its state and its types, read by `parse_job_type` (oar/lib/job_handling.py:1609-1621): name and value (`none` without `=`). -/
structure Job where
  state : String
  types : List (String × Option String)
  deriving DecidableEq

/-- The part of the database concerned: `scheduler_priority` of the resources, jobs, events (type, job). -/
structure Sys where
  prio : Nat → Int
  jobs : Nat → Option Job
  events : List (String × Nat)

/-- `t in job_types.keys()`. -/
def has (j : Job) (t : String) : Bool := j.types.any (fun x => x.1 == t)

/-- The levels: the non-empty parts of the configuration (oar/lib/resource_handling.py:371-377). -/
def levels (o : List Char) : List (List Char) :=
  ((split '/' o).filter (fun f => f ≠ [])).map (fun f => if f = txt "resource_id" then txt "id" else f)

/-- The resources updated at a level (oar/lib/resource_handling.py:379-402): those whose property is that of an assigned resource; NULL is equal to nothing. -/
def hit (e : Env) (jid : Nat) (f : List Char) (r : Nat) : Bool :=
  (e.assigned jid).any (fun a => e.attr f a == e.attr f r && (e.attr f r).isSome)

/-- The loop over the levels (oar/lib/resource_handling.py:370-402): the priorities, and whether the loop ended without return; `index` is the index of the level
before. -/
def apply (e : Env) (jid : Nat) (value coeff : Int) : Nat → List (List Char) → (Nat → Int) → (Nat → Int) × Bool
  | _, [], p => (p, true)
  | index, f :: fs, p =>
    if e.assigned jid = [] then (p, false)
    else apply e jid value coeff (index + 1) fs (fun r => if hit e jid f r then p r + value * ((index + 1 : Nat) : Int) * coeff else p r)

/-- `is_an_event_exists` (oar/lib/event.py:50-57). -/
def count (s : Sys) (jid : Nat) (t : String) : Nat := s.events.count (t, jid)

/-- Models `update_current_scheduler_priority` (oar/lib/resource_handling.py:321-413). -/
def update (e : Env) (s : Sys) (jid : Nat) (j : Job) (value : Int) (state : String) : Sys :=
  match e.order with
  | none => s
  | some o =>
    if (has j "besteffort" || has j "timesharing") &&
        ((state == "START" && count s jid "SCHEDULER_PRIORITY_UPDATED_START" == 0) ||
         (state == "STOP" && decide (count s jid "SCHEDULER_PRIORITY_UPDATED_START" > 0))) then
      let coeff : Int := if has j "besteffort" && !has j "timesharing" then 10 else 1
      let d := apply e jid value coeff 0 (levels o) s.prio
      if d.2 then { s with prio := d.1, events := s.events ++ [("SCHEDULER_PRIORITY_UPDATED_" ++ state, jid)] } else { s with prio := d.1 }
    else s

/-- A job row replaced. -/
def setJob (s : Sys) (jid : Nat) (j : Job) : Sys := { s with jobs := fun k => if k = jid then some j else s.jobs k }

/-- The part of `set_job_state` that matters here (oar/lib/job_handling.py:1693-1814): nothing for a job that has ended or is in the wanted state. -/
def setState (e : Env) (s : Sys) (jid : Nat) (st : String) : Sys :=
  match s.jobs jid with
  | none => s
  | some j =>
    if j.state = "Terminated" ∨ j.state = "Error" ∨ j.state = st then s
    else
      let j' := { j with state := st }
      let s' := setJob s jid j'
      if st = "toLaunch" then update e s' jid j' 2 "START"
      else if st = "Terminated" ∨ st = "Error" then update e s' jid j' (-2) "STOP"
      else s'

/-- `oardel --besteffort` of an existing job by an administrator (oar/cli/oardel.py:193-223): the type is taken away or given.
`remove_current_job_types` removes the rows that are exactly the name (oar/lib/job_handling.py:1639-1643). -/
def toggle (e : Env) (s : Sys) (jid : Nat) : Sys :=
  match s.jobs jid with
  | none => s
  | some j =>
    if j.state = "Running" then
      if has j "besteffort" then
        let s' := update e s jid j (-2) "STOP"
        let s'' := setJob s' jid { j with types := j.types.filter (fun x => x ≠ ("besteffort", none)) }
        { s'' with events := s''.events ++ [("DELETE_BESTEFFORT_JOB_TYPE", jid)] }
      else
        let j' := { j with types := j.types ++ [("besteffort", none)] }
        let s' := update e (setJob s jid j') jid j' 2 "START"
        { s' with events := s'.events ++ [("ADD_BESTEFFORT_JOB_TYPE", jid)] }
    else s

/-- The loop of `oardel --besteffort` (oar/cli/oardel.py:193-227): the exit values, and whether the loop ended; a job that does not exist raises. The
warnings have no exit value. -/
def toggleLoop (e : Env) : Sys → List Nat → Sys × Bool
  | s, [] => (s, true)
  | s, j :: js => if s.jobs j = none then (s, false) else toggleLoop e (toggle e s j) js

/-- `oardel --besteffort` (oar/cli/oardel.py:189-231): the database, the exit values and whether the command ended; `up`: the server is reached. -/
def oardelBesteffort (e : Env) (s : Sys) (user : String) (up : Bool) (ids : List Nat) : Sys × List Int × Bool :=
  if user ≠ "oar" ∧ user ≠ "root" then (s, [8], true)
  else
    let d := toggleLoop e s ids
    (d.1, if d.2 ∧ up = false then [2] else [], d.2)

/-- What happens to the jobs. -/
inductive Op where
  | state (jid : Nat) (st : String)
  | toggle (jid : Nat)
  deriving DecidableEq

/-- One operation. -/
def step (e : Env) (s : Sys) : Op → Sys
  | .state j st => setState e s j st
  | .toggle j => toggle e s j

/-- A history. -/
def run (e : Env) (s : Sys) (ops : List Op) : Sys := ops.foldl (step e) s

end Oar.Priority
