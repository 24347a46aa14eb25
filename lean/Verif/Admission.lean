import Verif.SubmissionProps

/-!
# Model of the admission rules

The rules of `etc/oar/admission_rules.d/` whose names begin with a number, run in the order of their names on the parameters of the
job (`apply_admission_rules`, oar/lib/submission.py:303-345). An exception refuses the submission. The messages printed are not modelled.
-/

namespace Oar.Admission

open Oar.Submission Oar.Tools

/-- What the rules read besides the parameters modelled by `Params`: the user, whether the job is interactive, the members of the
group admin (`none`: no such group, `getgrnam` raises), whether HOME is set, the lines of the file `unlimited_reservation.users`
(`none`: it cannot be read), the rows of the table of the jobs (user, reservation, state), the characters matched by `\w`. -/
structure Ctx where
  user : List Char
  interactive : Bool
  admins : Option (List (List Char))
  home : Bool
  unlimited : Option (List (List Char))
  jobs : List (List Char × String × String)
  word : Char → Bool

/-- `01_default_queue.py` and `02_prevent_root_oar_toSubmit.py`; the queue is never `None` (oar/lib/submission.py:138-139). -/
def rule02 (c : Ctx) (p : Params) : Option Params := if c.user = txt "root" ∨ c.user = txt "oar" then none else some p

/-- `03_avoid_jobs_on_resources_in_drain_mode.py`. -/
def rule03 (p : Params) : Params := { p with admin := some (txt "drain='NO'") }

/-- `04_submit_in_admin_queue.py`. -/
def rule04 (c : Ctx) (p : Params) : Option Params :=
  if p.queue = "admin" then
    match c.admins with
    | none => none
    | some l => if c.user ∈ l then some p else none
  else some p

/-- The levels of all the groups of all the alternatives. -/
def levelsOf (p : Params) : List (List Char) := p.request.flatMap (fun i => i.groups.flatMap (fun g => g.res.map (·.1)))

/-- The tuple of `05_filter_bad_resources.py`. -/
def systemLevels : List (List Char) := ["type", "state", "next_state", "finaud_decision", "next_finaud_decision", "state_num", "suspended_jobs",
  "besteffort", "deploy", "expiry_date", "desktop_computing", "last_job_date", "available_upto", "scheduler_priority"].map txt

/-- `05_filter_bad_resources.py`. -/
def rule05 (p : Params) : Option Params := if (levelsOf p).any (fun l => systemLevels.contains l) then none else some p

/-- `"({}) AND …".format(properties)`, or the condition when there are no properties. -/
def addCond (props cond : List Char) : List Char := if props ≠ [] then txt "(" ++ props ++ txt ") AND " ++ cond else cond

/-- `06_besteffort_formatting.py`. -/
def rule06 (p : Params) : Params :=
  let queue := if txt "besteffort" ∈ p.types ∧ p.queue ≠ "besteffort" then "besteffort" else p.queue
  let types := if queue = "besteffort" ∧ txt "besteffort" ∉ p.types then p.types ++ [txt "besteffort"] else p.types
  let props := if txt "besteffort" ∈ types then addCond p.props (txt "besteffort = 'YES'") else p.props
  { p with queue := queue, types := types, props := props }

/-- `07_besteffort_advance_reservation.py`. -/
def rule07 (p : Params) : Option Params := if txt "besteffort" ∈ p.types ∧ p.resv ≠ 0 then none else some p

/-- `08_deploy_formatting.py`. -/
def rule08 (p : Params) : Params :=
  if txt "deploy" ∈ p.types then { p with props := addCond p.props (txt "deploy = 'YES'") } else p

/-- The tuple of `09_prevent_deploy_on_non-entire_nodes.py`. -/
def partLevels : List (List Char) := ["core", "cpu", "thread", "resource_id"].map txt

/-- `09_prevent_deploy_on_non-entire_nodes.py`. -/
def rule09 (p : Params) : Option Params :=
  if txt "deploy" ∈ p.types ∧ (levelsOf p).any (fun l => partLevels.contains l) then none else some p

/-- `re.search(user, line)` for a name without special characters: the name is somewhere in the line. -/
def occurs (u : List Char) : List Char → Bool
  | [] => u = []
  | c :: l => u.isPrefixOf (c :: l) || occurs u l

/-- `11_advance_reservation_limitation.py`. -/
def rule11 (c : Ctx) (p : Params) : Option Params :=
  if p.resv ≠ 0 then
    if c.home = false then none
    else if (c.unlimited.getD []).any (occurs c.user) then some p
    else if 2 ≤ (c.jobs.filter (fun j => j.1 = c.user && (j.2.1 = "toSchedule" || j.2.1 = "Schedule") &&
      (j.2.2 = "Waiting" || j.2.2 = "Hold"))).length then none
    else some p
  else some p

/-- `13_default_walltime.py`. -/
def rule13 (p : Params) : Params :=
  { p with request := p.request.map (fun i => if i.walltime = none ∨ i.walltime = some 0 then { i with walltime := some 7200 } else i) }

/-- The comparison and the replacement of `14_interactive_max_walltime.py` for one alternative; the walltime is known after the previous
rule. -/
def capWall (i : Inst) : Inst :=
  match i.walltime with
  | some w => if 43200 < w then { i with walltime := some 43200 } else i
  | none => i

/-- `14_interactive_max_walltime.py`. -/
def rule14 (c : Ctx) (p : Params) : Params :=
  if c.interactive = true ∧ p.resv = 0 then { p with request := p.request.map capWall } else p

/-- A name after a prefix: `prefix\w+`. -/
def named (word : Char → Bool) (pre t : List Char) : Bool := pre.isPrefixOf t && t.drop pre.length ≠ [] && (t.drop pre.length).all word

/-- The regular expressions of `15_check_types.py` without their `$`. -/
def known (word : Char → Bool) (t : List Char) : Bool :=
  (["container", "deploy", "deploy=standby", "desktop_computing", "besteffort", "cosystem", "cosystem=standby", "idempotent",
    "timesharing=*,*", "timesharing=*,name", "timesharing=user,*", "timesharing=user,name", "timesharing=*,user", "timesharing=name,*",
    "timesharing=name,user"].map txt).contains t ||
  named word (txt "container=") t || named word (txt "placeholder=") t || named word (txt "allowed=") t || named word (txt "inner=") t

/-- `re.match(all_re, t)`: `$` also matches before a newline at the end. -/
def matchType (word : Char → Bool) (t : List Char) : Bool := known word t || (t.getLast? = some '\n' && known word t.dropLast)

/-- `15_check_types.py`. -/
def rule15 (c : Ctx) (p : Params) : Option Params := if p.types.all (matchType c.word) then some p else none

/-- Models `apply_admission_rules` (oar/lib/submission.py:303-345) with the rules installed by default. -/
def rules (c : Ctx) (p : Params) : Option Params :=
  (rule02 c p).bind (fun p => (rule04 c (rule03 p)).bind (fun p => (rule05 p).bind (fun p => (rule07 (rule06 p)).bind (fun p =>
    (rule09 (rule08 p)).bind (fun p => (rule11 c p).bind (fun p => rule15 c (rule14 c (rule13 p))))))))

end Oar.Admission
