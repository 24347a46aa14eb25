import Verif.Resources

/-!
# Model of `oarstat --properties`

`print_properties` of `oar/cli/oarstat.py`, `get_job_resources_properties` of `oar/lib/job_handling.py`.
-/

namespace Oar.StatProps

/-- A row of `resources` as an object: its identifier and its attributes in the order of the columns (oar/lib/models.py:70-75,344-365), with
their values as texts (`none`: NULL). -/
structure RRow where
  id : Nat
  attrs : List (String × Option String)
  deriving DecidableEq, Repr

/-- A row of `jobs` (oar/lib/models.py:367-405). -/
structure JRow where
  id : Nat
  mold : Nat
  array : Nat
  deriving DecidableEq, Repr

/-- The tables: `assigned` has the couples (moldable, resource). -/
structure Db where
  jobs : List JRow
  assigned : List (Nat × Nat)
  res : List RRow
  deriving DecidableEq, Repr

/-- Models `get_job_resources_properties` (oar/lib/job_handling.py:2675-2685): the join; the session gives each object once. -/
def jobResources (db : Db) (jid : Nat) : List RRow :=
  (db.res.filter (fun r => db.jobs.any (fun j => j.id == jid && db.assigned.any (fun a => a.1 == j.mold && a.2 == r.id)))).mergeSort
    (fun a b => decide (a.id ≤ b.id))

/-- The dictionary of a resource (oar/cli/oarstat.py:496-502). -/
def shown (r : RRow) : List (String × Option String) := r.attrs.filter (fun p => decide (p.1 ∉ Oar.Res.systemProps))

/-- `d[k].append(x)`, with an empty list for a new key (oar/cli/oarstat.py:493-496). -/
def push (k : Nat) (x : List (String × Option String)) :
    List (Nat × List (List (String × Option String))) → List (Nat × List (List (String × Option String)))
  | [] => [(k, [x])]
  | (a, l) :: d => if a = k then (a, l ++ [x]) :: d else (a, l) :: push k x d

/-- The dictionary of the jobs (oar/cli/oarstat.py:483-503). -/
def gather (db : Db) (jids : List Nat) : List (Nat × List (List (String × Option String))) :=
  (jids.flatMap (fun j => (jobResources db j).map (fun r => (r, j)))).foldl (fun d p => push p.2 (shown p.1) d) []

/-- A line (oar/cli/oarstat.py:517-525): the values in quotes. -/
def line (l : List (String × Option String)) : String :=
  String.intercalate ", " (l.map (fun p => p.1 ++ " = '" ++ p.2.getD "None" ++ "'"))

/-- What is printed. -/
inductive Shown
  /-- nothing, with an error and the exit status 1 -/
  | conflict
  /-- nothing, with a warning -/
  | noJob
  /-- the dictionary, in JSON or YAML -/
  | dict (d : List (Nat × List (List (String × Option String))))
  /-- the lines -/
  | lines (l : List String)
  deriving DecidableEq, Repr

/-- Models `oarstat -p` (oar/cli/oarstat.py:697-719,478-528): `jids` the jobs of `-j`, `array` the one of `--array` (0: as no array), `fmt`: a format is
asked. -/
def oarstatP (db : Db) (jids : List Nat) (array : Option Nat) (fmt : Bool) : Shown :=
  let arr := array.filter (fun a => a != 0)
  if jids ≠ [] ∧ arr.isSome then .conflict
  else
    let ids : List Nat := match arr with
      | some a => ((db.jobs.filter (fun j => j.array == a)).map JRow.id).mergeSort (fun a b => decide (a ≤ b))
      | none => jids
    if ids = [] then .noJob
    else if fmt then .dict (gather db ids)
    else .lines ((gather db ids).flatMap (fun e => e.2.map line))

end Oar.StatProps
