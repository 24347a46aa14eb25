import Verif.Oarstat

/-!
# Model of what the REST API tells about jobs

`GET /jobs` and `GET /jobs/{id}` of `oar/api/routers/job.py` with `details`, and the queries of `oar/lib/basequery.py` they use. The choice of the jobs and the pages are those of C57 and C58.
-/

namespace Oar.Details

open Oar.Tools

abbrev T := List Char

/-! ## The tables -/

/-- A job: the columns used here, and the other ones (`none`: NULL). -/
structure Job where
  id : Nat
  mold : Option Nat := none
  exit : Option Nat := none
  out : Option T := none
  err : Option T := none
  rest : String → Option T := fun _ => none

/-- A row of the resources. -/
structure Res where
  id : Nat
  address : T
  deriving DecidableEq

/-- A row of the events. -/
structure Event where
  id : Nat
  job : Nat
  date : Int
  typ : T
  description : T
  check : T
  deriving DecidableEq

/-- The tables: the jobs, the assignments (alternative, resource), the resources, the events, the alternatives (identifier, walltime), the types (job, text), the requests. -/
structure Db where
  jobs : List Job
  assigned : List (Nat × Nat)
  resources : List Res
  events : List Event
  molds : List (Nat × Int)
  types : List (Nat × T)
  requests : Oarstat.Requests

/-! ## The types of a job -/

/-- A value of the dictionary of types. -/
inductive TypeVal
  | yes
  | text (t : T)
  | token (name number : T)
  deriving DecidableEq

/-- `\s`, for ASCII. -/
def isSpace (c : Char) : Bool := c == ' ' || c == '\t' || c == '\n' || c == '\r' || c.toNat == 11 || c.toNat == 12
/-- `\w`, for ASCII. -/
def isWord (c : Char) : Bool := c.isAlphanum || c == '_'

def skip (l : T) : T := l.dropWhile isSpace

/-- A character and what follows it. -/
def expect (c : Char) : T → Option T
  | [] => none
  | d :: l => if d = c then some l else none

/-- `(\w+)` and what follows. -/
def word (l : T) : Option (T × T) := if l.takeWhile isWord = [] then none else some (l.takeWhile isWord, l.dropWhile isWord)

/-- The first expression of `parse_job_type` (oar/lib/job_handling.py:1612), `^\s*(token)\s*\:\s*(\w+)\s*=\s*(\d+)\s*$`: the name and the number. -/
def token (l : T) : Option (T × T) := do
  let l := skip l
  let l ← if (txt "token").isPrefixOf l then some (l.drop 5) else none
  let l ← expect ':' (skip l)
  let (n, l) ← word (skip l)
  let l ← expect '=' (skip l)
  let l := skip l
  if l.takeWhile Char.isDigit = [] then none
  else if skip (l.dropWhile Char.isDigit) = [] then some (n, l.takeWhile Char.isDigit) else none

/-- The second one (oar/lib/job_handling.py:1616), `^\s*(\w+)\s*=\s*(.+)$`, for texts of one line: when only blanks follow the sign the last one is the value. -/
def assign (l : T) : Option (T × T) := do
  let (n, l) ← word (skip l)
  let l ← expect '=' (skip l)
  if skip l = [] then l.getLast?.map (fun c => (n, [c])) else some (n, skip l)

/-- `d[k] = v`. -/
def set {α β : Type} [DecidableEq α] (k : α) (v : β) : List (α × β) → List (α × β)
  | [] => [(k, v)]
  | p :: d => if p.1 = k then (k, v) :: d else p :: set k v d

/-- The key and the value of a type (oar/lib/job_handling.py:1612-1620). -/
def typeEntry (l : T) : T × TypeVal :=
  match token l with
  | some (n, v) => (txt "token", .token n v)
  | none =>
    match assign l with
    | some (n, v) => (n, .text v)
    | none => (l, .yes)

/-- `parse_job_type` (oar/lib/job_handling.py:1609-1621). -/
def parseTypes (l : List T) : List (T × TypeVal) := l.foldl (fun d t => set (typeEntry t).1 (typeEntry t).2 d) []

/-! ## The dictionaries of the answers -/

/-- A value of an answer. -/
inductive Val
  | null
  | num (n : Int)
  | text (t : T)
  | ids (l : List Nat)
  | nodes (l : List T)
  | events (l : List Event)
  | types (d : List (T × TypeVal))
  deriving DecidableEq

abbrev Dict := String → Option Val

def put (k : String) (v : Val) (d : Dict) : Dict := fun k' => if k' = k then some v else d k'

/-- The columns of the table of jobs (oar/lib/models.py:372-406). -/
def columns : List String := ["id", "array_id", "array_index", "initial_request", "name", "env", "type", "info_type", "state", "reservation", "message", "scheduler_info", "user", "project", "group",
  "command", "exit_code", "queue_name", "properties", "launching_directory", "submission_time", "start_time", "stop_time", "file_id", "accounted", "notify", "assigned_moldable_job", "checkpoint",
  "checkpoint_signal", "stdout_file", "stderr_file", "resubmit_job_id", "suspended", "last_karma"]

/-- The columns of a list without details (oar/lib/basequery.py:184-192). -/
def shortColumns : List String := ["id", "name", "queue_name", "user", "submission_time", "state", "exit_code"]

def optVal {α : Type} (f : α → Val) : Option α → Val
  | none => .null
  | some a => f a

/-- The value of a column. -/
def Job.value (j : Job) (k : String) : Val :=
  if k = "id" then .num j.id
  else if k = "assigned_moldable_job" then optVal (fun n : Nat => .num n) j.mold
  else if k = "exit_code" then optVal (fun n : Nat => .num n) j.exit
  else if k = "stdout_file" then optVal .text j.out
  else if k = "stderr_file" then optVal .text j.err
  else optVal .text (j.rest k)

/-- `asdict` (oar/lib/models.py:70-77) of a job whose columns `cols` are loaded. -/
def asdict (cols : List String) (j : Job) : Dict := fun k => if k ∈ cols then some (j.value k) else none

/-- `str.replace("%jobid%", …)`; the number bounds the length. -/
def replaceId (id : T) : Nat → T → T
  | 0, l => l
  | _ + 1, [] => []
  | n + 1, c :: l => if (txt "%jobid%").isPrefixOf (c :: l) then id ++ replaceId id n ((c :: l).drop 7) else c :: replaceId id n l

/-- `attach_exit_status` (oar/api/routers/job.py:68-72); statuses are not negative. -/
def attachExit (d : Dict) : Dict :=
  match d "exit_code" with
  | some (.num c) => put "exit_status_code" (optVal (fun n : Nat => .num n) (Oarstat.exitStatus (some c.toNat))) d
  | _ => put "exit_status_code" .null d

/-- One turn of `macro_replacements` (oar/api/routers/job.py:76-79). -/
def macroOf (k : String) (id : Nat) (d : Dict) : Dict :=
  match d k with
  | some (.text t) => put k (.text (replaceId (digits id) t.length t)) d
  | _ => d

/-- `macro_replacements` (oar/api/routers/job.py:75-79). -/
def macros (id : Nat) (d : Dict) : Dict := macroOf "stdout_file" id (macroOf "stderr_file" id d)

/-- `remove_null_fields` (oar/api/routers/job.py:82-85). -/
def removeNull (d : Dict) : Dict := fun k => if d k = some .null then none else d k

/-! ## The queries -/

/-- What the database answers to the five queries. -/
structure Found where
  resources : List (Nat × Res)
  events : List (Nat × Event)
  walltimes : List (Nat × Int)
  types : List (Nat × T)
  requests : List (Nat × Oarstat.Level)

/-- The jobs of the page. -/
def Db.among (db : Db) (page : List Nat) : List Job := db.jobs.filter (fun j => decide (j.id ∈ page))

/-- The rows of `get_assigned_jobs_resources` (oar/lib/basequery.py:234-250). -/
def resourceRows (db : Db) (page : List Nat) : List (Nat × Res) :=
  (db.among page).flatMap (fun j => (db.assigned.filter (fun a => j.mold == some a.1)).flatMap (fun a => (db.resources.filter (fun r => r.id == a.2)).map (fun r => (j.id, r))))

/-- The rows of `get_jobs_events` (oar/lib/basequery.py:335-357). -/
def eventRows (db : Db) (page : List Nat) : List (Nat × Event) :=
  (db.among page).flatMap (fun j => (db.events.filter (fun e => j.id == e.job)).map (fun e => (j.id, e)))

/-- The rows of `get_jobs_walltime` (oar/lib/basequery.py:278-294). -/
def walltimeRows (db : Db) (page : List Nat) : List (Nat × Int) :=
  (db.among page).flatMap (fun j => (db.molds.filter (fun m => j.mold == some m.1)).map (fun m => (j.id, m.2)))

/-- The rows of `get_jobs_types` (oar/lib/basequery.py:296-315). -/
def typeRows (db : Db) (page : List Nat) : List (Nat × T) := db.types.filter (fun t => decide (t.1 ∈ page))

/-- The levels of the alternative of a job. -/
def levelsOf (db : Db) (j : Job) : List Oarstat.Level :=
  match j.mold with
  | none => []
  | some m => Oarstat.rowsOf db.requests m

/-- The rows of `get_actual_requests` (oar/lib/basequery.py:252-276); the properties of the groups are not NULL. -/
def requestRows (db : Db) (page : List Nat) : List (Nat × Oarstat.Level) := (db.among page).flatMap (fun j => (levelsOf db j).map (fun l => (j.id, l)))

/-- The answers the database may give: the rows, in the order of the query (`le`: the order of the texts). -/
structure Answer (db : Db) (le : T → T → Bool) (page : List Nat) (f : Found) : Prop where
  resources : f.resources.Perm (resourceRows db page)
  events : f.events.Perm (eventRows db page)
  walltimes : f.walltimes.Perm (walltimeRows db page)
  types : f.types.Perm (typeRows db page)
  typesSorted : f.types.Pairwise (fun a b => a.1 ≤ b.1)
  requests : f.requests.Perm (requestRows db page)
  requestsSorted : f.requests.Pairwise (fun a b => Oarstat.leLevel le a.2 b.2 = true)

/-- `groupby_jobs_resources`, `groupby_jobs_requests` (oar/lib/basequery.py:216-232): a row of a job which is not asked raises. -/
def groupRows {α : Type} (page : List Nat) : List (Nat × α) → Option (Nat → Option (List α)) → Option (Nat → Option (List α))
  | [], d => d
  | r :: rows, d => groupRows page rows (d.bind (fun d => (d r.1).map (fun l => fun i => if i = r.1 then some (l ++ [r.2]) else d i)))

/-- The dictionary at the beginning. -/
def emptyGroups {α : Type} (page : List Nat) : Nat → Option (List α) := fun i => if i ∈ page then some [] else none

/-- `res[job_id] = …` in a loop (oar/lib/basequery.py:291-294, 311-314). -/
def lastOf {α : Type} : List (Nat × α) → (Nat → Option α) → Nat → Option α
  | [], d => d
  | r :: rows, d => lastOf rows (fun i => if i = r.1 then some r.2 else d i)

/-- `itertools.groupby` (oar/lib/basequery.py:312): the runs of rows of the same job. -/
def runs {α : Type} : List (Nat × α) → List (Nat × List α)
  | [] => []
  | r :: rows =>
    match runs rows with
    | [] => [(r.1, [r.2])]
    | g :: gs => if r.1 = g.1 then (r.1, r.2 :: g.2) :: gs else (r.1, [r.2]) :: g :: gs

/-- The nodes (oar/api/routers/job.py:52-60). -/
def distinct : List T → List T → List T
  | [], acc => acc
  | a :: l, acc => distinct l (if a ∈ acc then acc else acc ++ [a])

/-! ## The routes -/

/-- The dictionaries of the details (oar/api/routers/job.py:117-123, 155-161). -/
structure Tables where
  resources : Nat → Option (List Res)
  events : Nat → Option (List Event)
  walltimes : Nat → Option Int
  types : Nat → Option (List (T × TypeVal))
  requests : Nat → Option (List Oarstat.Level)

def tables (page : List Nat) (f : Found) : Option Tables := do
  let r ← groupRows page f.resources (some (emptyGroups page))
  let e ← groupRows page f.events (some (emptyGroups page))
  let q ← groupRows page f.requests (some (emptyGroups page))
  return ⟨r, e, lastOf f.walltimes (fun _ => none), lastOf ((runs f.types).map (fun g => (g.1, parseTypes g.2))) (fun _ => none), q⟩

/-- `attach_…` (oar/api/routers/job.py:30-65): the resources of a job which is not in the dictionary raise, the other details are left out. -/
def attachAll (t : Tables) (id : Nat) (d : Dict) : Option Dict :=
  match t.resources id with
  | none => none
  | some rs =>
    let d := match t.types id with | some v => put "types" (.types v) d | none => d
    let d := put "resources" (.ids (rs.map Res.id)) d
    let d := put "nodes" (.nodes (distinct (rs.map Res.address) [])) d
    let d := match t.events id with | some v => put "events" (.events v) d | none => d
    let d := match t.walltimes id with | some v => put "walltime" (.num v) d | none => d
    some (match t.requests id with | some v => put "actual_resources" (.text (Oarstat.format v)) d | none => d)

/-- An item of the list (oar/api/routers/job.py:124-135); `none`: an exception. -/
def item (cols : List String) (t : Option Tables) (j : Job) : Option Dict :=
  let d := macros j.id (attachExit (asdict cols j))
  match t with
  | none => some (removeNull d)
  | some t => (attachAll t j.id d).map removeNull

/-- `GET /jobs` (oar/api/routers/job.py:88-137) for the jobs of a page: `details` is a text, any one but the empty one asks for the details. -/
def list (details : Option T) (page : List Job) (f : Found) : Option (List Dict) :=
  if details.getD [] ≠ [] then
    match tables (page.map Job.id) f with
    | none => none
    | some t => page.mapM (item columns (some t))
  else page.mapM (item shortColumns none)

/-- The boolean of a parameter of the request, as pydantic reads it; `none`: the request is refused (422). -/
def readBool (t : T) : Option Bool :=
  if t.map Char.toLower ∈ [txt "1", txt "on", txt "t", txt "true", txt "y", txt "yes"] then some true
  else if t.map Char.toLower ∈ [txt "0", txt "off", txt "f", txt "false", txt "n", txt "no"] then some false else none

/-- How a request ends. -/
inductive Resp
  | ok (d : Dict)
  | notFound
  | invalid
  | raises

/-- `GET /jobs/{id}` (oar/api/routers/job.py:140-171): `asdict` is called before the test of the job. `details`: the text of the parameter. -/
def one (db : Db) (details : Option T) (id : Nat) (f : Found) : Resp :=
  match details.map readBool with
  | some none => .invalid
  | b =>
    match db.jobs.find? (fun j => j.id == id) with
    | none => .raises
    | some j =>
      if b = some (some true) then
        match tables [id] f with
        | none => .raises
        | some t =>
          match item columns (some t) j with
          | none => .raises
          | some d => .ok d
      else
        match item columns none j with
        | none => .raises
        | some d => .ok d

end Oar.Details
