import Verif.Cli
import Verif.Tools

/-!
# Model of the requests of the API that act on the jobs

`oar/api/routers/job.py`: deletions, signals, checkpoints, resumptions, holds. The validity of the token is modelled in Api, the submission in ApiSubmit, the commands in Cli.
Not modelled: the identifiers that are not written with digits only (they are taken as invalid); the texts of the answers.
-/

namespace Oar.ApiJobs

open Oar.Jobs Oar.Cli Oar.Tools

/-- The methods of HTTP. -/
inductive Method
  | get
  | post
  | delete
  | other
  deriving DecidableEq

/-- A request: the segments of the path after `/jobs`, the name in a valid token, the parameters `array` and `signal`. -/
structure Req where
  method : Method
  path : List (List Char)
  user : Option String
  array : Bool := false
  signal : Option Int := none

/-- The outside: the date, whether the server is up, the nodes, the options, the jobs of each array. -/
structure Site where
  now : Int
  up : Bool
  nodes : Nodes
  cpuset : Bool
  allowed : Bool
  arrays : Nat → List Nat

/-- The operations that change the jobs, with the texts of their arguments. -/
inductive Route
  | del (i : List Char)
  | signal (i s : List Char)
  | checkpoint (i : List Char)
  | resume (i : List Char)
  | hold (i w : List Char)
  deriving DecidableEq

/-- The routes in the order of their declaration (oar/api/routers/job.py:439-441, 466-467, 503). -/
def dispatch (m : Method) (path : List (List Char)) : Option Route :=
  match path with
  | [i] => if m = .delete then some (.del i) else none
  | [i, w, e] =>
    if w = txt "deletions" ∧ e = txt "new" ∧ (m = .post ∨ m = .delete) then some (.del i)
    else if m ≠ .post then none
    else if w = txt "checkpoints" ∧ e = txt "new" then some (.checkpoint i)
    else if w = txt "signal" then some (.signal i e)
    else if w = txt "resumptions" ∧ e = txt "new" then some (.resume i)
    else if e = txt "new" then some (.hold i w)
    else none
  | _ => none

/-- The answer: the status, the field `exit_status`, the tables, what is sent to the server. -/
structure Ans where
  status : Nat
  exit : Option Int
  db : DB
  sent : List String
  deriving DecidableEq

/-- The answer of a command: an exception gives the status 500. -/
def answer (o : Out) : Ans := if o.raised then ⟨500, none, o.db, o.sent⟩ else ⟨200, some (exitValue o.ret).1, o.db, o.sent⟩

/-- The deletion (oar/api/routers/job.py:441-463). -/
def delete (w : Site) (db : DB) (user : String) (array : Bool) (i : Nat) : Ans :=
  answer (oardel db w.now user w.up (if array then (if i = 0 then {} else { array := some (w.arrays i) }) else { ids := [i] }))

/-- The signal and the checkpoint (oar/api/routers/job.py:466-500), with `oardel` (oar/cli/oardel.py:75-145). The number of a signal is not a text: `signal_oarexec`
(oar/lib/tools.py:403-418) raises when it makes the command. -/
def signal (w : Site) (db : DB) (user : String) (sig : Option Int) (i : Nat) : Ans :=
  match sig with
  | none => answer (oardelSignal db w.nodes true user { ids := [i] })
  | some s =>
    if s = 0 then answer (oardelSignal db w.nodes true user { ids := [i] })
    else
      let r := askCheckpoint db i (some "SIGURG") user
      if r.1 > 0 then answer ⟨r.2, ⟨[0, 0, signalCode r.1], 0⟩, [], false⟩
      else answer ⟨r.2, ⟨[0], 0⟩, [], true⟩

/-- The operation of a route, once the user is known. `none`: an argument is not a number. -/
def perform (w : Site) (db : DB) (user : String) (array : Bool) (sig : Option Int) : Route → Option Ans
  | .del i => match pyNat i with
    | some n => some (delete w db user array n)
    | none => none
  | .signal i s => match pyNat i, pyInt s with
    | some n, some k => some (signal w db user (some k) n)
    | _, _ => none
  | .checkpoint i => match pyNat i with
    | some n => some (signal w db user sig n)
    | none => none
  | .resume i => match pyNat i with
    | some n => some (answer (oarresume db w.allowed user { ids := [n] }))
    | none => none
  | .hold i v => match pyNat i with
    | some n => some (answer (oarhold db w.cpuset w.allowed (decide (v = txt "rhold")) user { ids := [n] }))
    | none => none

/-- A request (oar/api/routers/job.py:436-539). The user is looked at before the arguments. -/
def handle (w : Site) (db : DB) (r : Req) : Ans :=
  match dispatch r.method r.path with
  | none => ⟨404, none, db, []⟩
  | some route =>
    match r.user with
    | none => ⟨401, none, db, []⟩
    | some u =>
      match perform w db u r.array r.signal route with
      | none => ⟨422, none, db, []⟩
      | some a => a

end Oar.ApiJobs
