import Verif.Tools

/-!
# Model of the types of jobs

`get_jobs_types` and `is_timesharing_for_two_jobs` (`oar/lib/job_handling.py`). Texts are lists of characters.
-/

namespace Oar.JobTypes

open Oar.Tools

/-- The attributes set by `get_jobs_types` on a job; `types` is the dictionary of the other types. -/
structure Info where
  ts : Option (List Char × List Char)
  placeholder : Option (List Char)
  allow : Option (List Char)
  assign : Bool
  find : Bool
  noQuotas : Bool
  types : List (List Char × List Char)
  deriving DecidableEq

/-- `d[k] = v` for a dictionary in order of insertion. -/
def dictSet {κ ν : Type} [DecidableEq κ] (k : κ) (v : ν) : List (κ × ν) → List (κ × ν)
  | [] => [(k, v)]
  | (a, b) :: d => if a = k then (a, v) :: d else (a, b) :: dictSet k v d

/-- The attributes before `get_jobs_types`. -/
def Info.empty : Info := ⟨none, none, none, false, false, false, []⟩

/-- `get_jobs_types` (oar/lib/job_handling.py:140-180) for one row of `job_types`; `none` is the IndexError or the
ValueError of a type without its value. A placeholder and an `allow` are exclusive: the last one written wins. The
arguments of the plug-ins (`assign=`, `find=`) are not modelled. -/
def addType (i : Info) (typ : List Char) : Option Info :=
  let tv := split '=' typ
  let t := tv.headD []
  if t = txt "timesharing" then
    match tv with
    | _ :: v :: _ => (match split ',' v with
      | [u, n] => some { i with ts := some (u, n) }
      | _ => none)
    | _ => none
  else if t = txt "placeholder" then
    match tv with
    | _ :: v :: _ => some { i with placeholder := some v, allow := none }
    | _ => none
  else if t = txt "allow" then
    match tv with
    | _ :: v :: _ => some { i with allow := some v, placeholder := none }
    | _ => none
  else if t = txt "assign" then some { i with assign := true }
  else if t = txt "find" then some { i with find := true }
  else if t = txt "no_quotas" then some { i with noQuotas := true }
  else match tv with
    | [_, v] => some { i with types := dictSet t v i.types }
    | _ => some { i with types := dictSet t [] i.types }

/-- `get_jobs_types` (oar/lib/job_handling.py:140-186) for one job: its rows in the order of the query. -/
def jobTypes : List (List Char) → Info → Option Info
  | [], i => some i
  | t :: ts, i => (addType i t).bind (jobTypes ts)

/-- The parts of a job read by `is_timesharing_for_two_jobs`: the dictionary `types`, the user and the name. -/
structure TJob where
  types : List (List Char × List Char)
  user : String
  name : String

/-- `is_timesharing_for_two_jobs` (oar/lib/job_handling.py:1345-1362), with its test of `t1` twice. -/
def isTimesharing (j1 j2 : TJob) : Bool :=
  match j1.types.lookup (txt "timesharing"), j2.types.lookup (txt "timesharing") with
  | some t1, some t2 =>
    if t1 = txt "*,*" ∧ t2 = txt "*,*" then true
    else if j1.user = j2.user ∧ j1.name = j2.name then true
    else if j1.user = j2.user ∧ t1 = txt "user,*" ∧ t2 = txt "user,*" then true
    else if j1.name = j2.name ∧ t1 = txt "*,name" ∧ t1 = txt "*,name" then true
    else false
  | _, _ => false

end Oar.JobTypes
