/-!
# Model of the routes that tell the load

`GET /resources/busy` and `get_count_busy_resources` (`oar/lib/resource_handling.py`), `GET /stress_factor` (`oar/api/routers/stress_factor.py`), and the command `oarnotify`
(`oar/cli/oarnotify.py`).
-/

namespace Oar.Load

/-- A row of `jobs`: its state and its moldable (0: none yet). -/
structure Job where
  id : Nat
  state : String
  mold : Nat
  deriving DecidableEq, Repr

/-- The tables: `assigned` has the couples (moldable, resource), of the jobs of the present and of the past. -/
structure Db where
  jobs : List Job
  assigned : List (Nat × Nat)
  deriving DecidableEq, Repr

/-- `DISTINCT`. -/
def distinct : List Nat → List Nat
  | [] => []
  | a :: l => a :: (distinct l).filter (fun x => !(x == a))

/-- The subquery of `get_count_busy_resources` (oar/lib/resource_handling.py:518-520). -/
def activeMolds (db : Db) : List Nat := (db.jobs.filter (fun j => ["toLaunch", "Running", "Resuming"].contains j.state)).map Job.mold

/-- Models `get_count_busy_resources` (oar/lib/resource_handling.py:515-526), the answer of `GET /resources/busy` (oar/api/routers/resource.py:73-75). -/
def busy (db : Db) : Nat := (distinct ((db.assigned.filter (fun a => (activeMolds db).contains a.1)).map (·.2))).length

/-- `text.split(c)`. -/
def split (c : Char) : List Char → List (List Char)
  | [] => [[]]
  | x :: l =>
    if x = c then [] :: split c l
    else match split c l with
      | [] => [[x]]
      | p :: ps => (x :: p) :: ps

/-- What a request gets: a status, and the value of GLOBAL_STRESS. -/
inductive Answer where
  | ok (value : List Char)
  | notFound
  | failed
  deriving DecidableEq, Repr

/-- The name of the variable. -/
def key : List Char := "GLOBAL_STRESS".toList

/-- The loop on the lines (oar/api/routers/stress_factor.py:52-59): `value` is the one kept so far. -/
def scan : List (List Char) → Option (List Char) → Option (List Char)
  | [], value => value
  | l :: ls, value =>
    match split '=' l with
    | [k, v] => scan ls (if k = key then some v else value)
    | _ => scan ls value

/-- Models `GET /stress_factor` (oar/api/routers/stress_factor.py:41-65); `out` is what the script writes, `none` when its exit status is not 0 (`check_output` raises). -/
def stress (out : Option (List Char)) : Answer :=
  match out with
  | none => .failed
  | some o =>
    match scan (split '\n' o) none with
    | some v => .ok v
    | none => .notFound

/-- What `oarnotify` does: the messages sent to the server and the exit status. -/
structure Notified where
  sent : List String
  exit : Nat
  deriving DecidableEq, Repr

/-- Models `oarnotify` (oar/cli/oarnotify.py:13-32); `user` and `sudo` are the variables USER and OARDO_USER. -/
def oarnotify (user : String) (sudo : Option String) (tag : String) (version : Bool) : Notified :=
  if version then ⟨[], 0⟩
  else if sudo.getD user = "oar" ∨ sudo.getD user = "root" then ⟨[tag], 0⟩
  else ⟨[], 8⟩

end Oar.Load
