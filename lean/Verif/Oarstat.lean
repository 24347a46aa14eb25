import Verif.Api
import Verif.SqlText

/-!
# Model of oarstat

`oar/cli/oarstat.py`, with the queries it uses. The drawing of the table, the output in JSON and YAML and the accounting are not modelled here.
-/

namespace Oar.Oarstat

open Oar.Tools

abbrev T := List Char

/-! ## The option -u -/

def isUser (a : T) : Bool := a == txt "-u" || a == txt "--user"

def thisUser : T := txt "_this_user_"

/-- `user_option_flag_or_string` (oar/cli/oarstat.py:556-572): `none` when `sys.argv[i + 1][0]` raises. -/
def userOption : List T → Option (List T)
  | [] => none
  | [a] => some (if isUser a then [a, thisUser] else [a])
  | a :: b :: r =>
    match userOption (b :: r) with
    | none => none
    | some t =>
      if isUser a then
        match b with
        | [] => none
        | c :: _ => some (if c = '-' then a :: thisUser :: t else a :: t)
      else some (a :: t)

/-! ## The fields -/

/-- What `parse_field_label` gives: an error told to the user (exit status 1), an exception, the fields with their labels. -/
inductive Fields where
  | error
  | raises
  | ok (fs : List (T × T))
  deriving DecidableEq

/-- `d[k] = v` of a dictionary. -/
def put (k v : T) : List (T × T) → List (T × T)
  | [] => [(k, v)]
  | p :: r => if p.1 = k then (k, v) :: r else p :: put k v r

/-- The loop of `parse_field_label` (oar/cli/oarstat.py:74-99): `Job.__table__.c[field]` raises for a name that is not a column; the check that follows never fails. `key` gives the
attribute of a column of the table of jobs. -/
def fieldLoop (key : T → Option T) : List T → List (T × T) → Fields
  | [], acc => .ok acc
  | f :: r, acc =>
    if f = [] then .error
    else
      let add (name label : T) : Fields :=
        if name = txt "Duration" then fieldLoop key r (put name label acc)
        else match key name with
          | none => .raises
          | some k => fieldLoop key r (put k label acc)
      match split ':' f with
      | [a] => add a a
      | [a, b] => add a b
      | _ => .error

/-- `parse_field_label` (oar/cli/oarstat.py:68-104) for a text that is not empty. -/
def parseFields (key : T → Option T) (s : T) : Fields := fieldLoop key (split ',' s) []

/-! ## The duration -/

/-- The duration of a job (oar/cli/oarstat.py:127-136, 164-172); `-1` when there is none. -/
def duration (now : Int) (j : Api.Job) : Int :=
  if j.start ≠ 0 ∧ j.start < now then
    if j.state = "Running" ∨ j.state = "Launching" ∨ j.state = "Finishing" then now - j.start
    else if j.stop ≠ 0 then j.stop - j.start
    else -1
  else -1

/-- A number in two digits. -/
def two (n : Nat) : T := [ch (n / 10), ch (n % 10)]

/-- `str(datetime.timedelta(seconds=n))`. -/
def timedelta (n : Nat) : T :=
  (if n / 86400 = 0 then [] else digits (n / 86400) ++ txt (if n / 86400 = 1 then " day, " else " days, ")) ++
    digits (n % 86400 / 3600) ++ ':' :: (two (n % 3600 / 60) ++ ':' :: two (n % 60))

/-- The text of the column (oar/cli/oarstat.py:137-140, 173-176). -/
def durationText (now : Int) (j : Api.Job) : T := if 0 ≤ duration now j then timedelta (duration now j).toNat else txt "-"

/-! ## The exit status -/

/-- `convert_status_code` (oar/lib/job_handling.py:2030-2040) of a status of the system (not negative). -/
def exitStatus (code : Option Nat) : Option Nat :=
  code.map (fun c => if c / 256 ≠ 0 then c / 256 else c % 128)

/-! ## The request of a job that was placed -/

/-- A row of `get_actual_requests` (oar/lib/basequery.py:252-275). -/
structure Level where
  prop : T
  ord : Nat
  typ : T
  value : Int
  deriving DecidableEq

/-- The order of the rows: by property (in the order of the database), then by level. -/
def leLevel (le : T → T → Bool) (a b : Level) : Bool := if a.prop = b.prop then decide (a.ord ≤ b.ord) else le a.prop b.prop

/-- One turn of `format_actual_request` (oar/lib/tools.py:996-1003): the text, the property of the current group. -/
def formatStep (s : T × T) (l : Level) : T × T :=
  let s' : T × T := if l.prop ≠ [] ∧ s.2 ≠ l.prop then ((if s.1 ≠ [] then s.1 ++ ['+'] else s.1) ++ '{' :: l.prop ++ ['}'], l.prop) else s
  (s'.1 ++ '/' :: l.typ ++ '=' :: str l.value, s'.2)

/-- `format_actual_request` (oar/lib/tools.py:992-1004). -/
def format (rows : List Level) : T := (rows.foldl formatStep ([], [])).1

/-- The tables of the requests: the groups (number, alternative, property), the levels (group, level). -/
structure Requests where
  groups : List (Nat × Nat × T)
  levels : List (Nat × Nat × T × Int)

/-- The rows of the alternative of a job, before they are sorted (oar/lib/basequery.py:256-275). -/
def rowsOf (r : Requests) (mold : Nat) : List Level :=
  (r.groups.filter (fun g => g.2.1 == mold)).flatMap (fun g =>
    (r.levels.filter (fun l => l.1 == g.1)).map (fun l => { prop := g.2.2, ord := l.2.1, typ := l.2.2.1, value := l.2.2.2 }))

/-- `job.actual_resources` (oar/cli/oarstat.py:283-284). -/
def actual (le : T → T → Bool) (r : Requests) (mold : Nat) : T := format ((rowsOf r mold).mergeSort (leLevel le))

/-! ## The jobs -/

/-- The text given to `--sql`, with the values of its elementary conditions for each job. -/
structure Sql where
  text : T
  val : Api.Job → List Sql.Tok → Bool

/-- The value of the parts of a text between its OR, the last one being followed by `AND post`. -/
def lastParts (val : List Sql.Tok → Bool) (post : Bool) : List (List Sql.Tok) → Bool
  | [] => post
  | [d] => (Sql.splitTop .and 0 d).all (Sql.factor val) && post
  | d :: ds => (Sql.splitTop .and 0 d).all (Sql.factor val) || lastParts val post ds

/-- The value of `pre AND text AND post` when the text is put as it is: AND binds before OR. -/
def combined (val : List Sql.Tok → Bool) (pre post : Bool) (q : T) : Bool :=
  match Sql.splitTop .or 0 (Sql.lex q) with
  | [] => pre && post
  | [d] => pre && (Sql.splitTop .and 0 d).all (Sql.factor val) && post
  | d :: ds => (pre && (Sql.splitTop .and 0 d).all (Sql.factor val)) || lastParts val post ds

/-- `q.filter(text(sql_property)) if sql_property else q`, then the bounds (oar/lib/basequery.py:115-117): SQLAlchemy puts no parentheses around a `text`. -/
def withSql (s : Option Sql) (j : Api.Job) (pre post : Bool) : Bool :=
  match s with
  | none => pre && post
  | some s => if s.text = [] then pre && post else combined (s.val j) pre post s.text

/-- The three queries (oar/lib/basequery.py:124-150), as in `Verif/Api.lean`, with the text. -/
def q1 (db : Api.Db) (f : Api.Filter) (s : Option Sql) (j : Api.Job) : Bool :=
  db.assigned.any (fun a => db.molds.any (fun m =>
    withSql s j (j.mold == a.mold && (f.index a.current || j.mold == 0) && m.job == j.id && f.common j)
      (Api.bound f.fromT (fun t => decide (j.stop ≥ t) ||
        (j.stop == 0 && ((j.state == "Running" && decide (j.start + m.walltime ≥ t)) || j.state == "Suspended" || j.state == "Resuming"))) &&
      Api.bound f.toT (fun t => decide (j.start < t)))))

def q2 (db : Api.Db) (f : Api.Filter) (s : Option Sql) (j : Api.Job) : Bool :=
  db.preds.any (fun p => db.visu.any (fun v => db.molds.any (fun m =>
    withSql s j (p.1 == v.1 && p.1 == m.id && j.id == m.job && f.common j)
      (Api.bound f.fromT (fun t => decide (p.2 + m.walltime ≥ t)) && Api.bound f.toT (fun t => decide (p.2 < t))))))

def q3 (f : Api.Filter) (s : Option Sql) (j : Api.Job) : Bool :=
  withSql s j (j.stop == 0 && f.common j) (Api.bound f.fromT (fun t => decide (j.submission ≥ t)) && Api.bound f.toT (fun t => decide (j.submission ≤ t)))

/-- `get_jobs_for_user` with a text. -/
def jobs (db : Api.Db) (f : Api.Filter) (s : Option Sql) : List Api.Job := db.jobs.filter (fun j => q1 db f s j || q2 db f s j || q3 f s j)

/-! ## The command -/

/-- An event (oar/lib/models.py:173-181). -/
structure Event where
  id : Nat
  job : Nat
  date : Int
  typ : String
  deriving DecidableEq

/-- The order of the events of `get_jobs_events` (oar/lib/event.py:71-79). -/
def leEvent (a b : Event) : Bool := decide (a.job < b.job) || (decide (a.job = b.job) && decide (a.date ≤ b.date))

/-- The options: jobs, array (0: none), kind of answer, user, dates (`some none`: a text that is not two dates), text. -/
structure Opts where
  ids : List Nat := []
  array : Nat := 0
  events : Bool := false
  state : Bool := false
  user : Option String := none
  gantt : Option (Option (Int × Int)) := none
  sql : Option Sql := none

/-- The answers: the two options together (status 1), no identifier (a warning, status 0), an exception, events, states, jobs. -/
inductive Answer where
  | conflict
  | noId
  | raises
  | events (l : List Event)
  | states (l : List (Nat × String))
  | jobs (l : List Api.Job)
  deriving DecidableEq

/-- The jobs named by the options (oar/cli/oarstat.py:439-440, 532-533, oar/lib/job_handling.py:1456-1462). -/
def named (db : Api.Db) (o : Opts) : List Nat :=
  if o.array ≠ 0 then (db.jobs.filter (fun j => j.array == o.array)).map (·.id) else o.ids

/-- `cli` (oar/cli/oarstat.py:648-759) for these answers. The table of jobs is in the order of the identifiers. -/
def oarstat (db : Api.Db) (events : List Event) (o : Opts) : Answer :=
  if o.ids ≠ [] ∧ o.array ≠ 0 then .conflict
  else if o.events then
    if named db o = [] then .noId
    else .events ((events.filter (fun e => decide (e.job ∈ named db o))).mergeSort leEvent)
  else if o.state then
    if named db o = [] then .noId
    else .states ((db.jobs.filter (fun j => decide (j.id ∈ named db o))).map (fun j => (j.id, j.state)))
  else match o.gantt with
    | some none => .raises
    | some (some d) => .jobs (jobs db { user := o.user, fromT := some d.1, toT := some d.2, ids := o.ids, array := o.array } o.sql)
    | none => .jobs (jobs db { user := o.user, ids := o.ids, array := o.array } o.sql)

end Oar.Oarstat
