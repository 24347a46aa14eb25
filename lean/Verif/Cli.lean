import Verif.Jobs

/-!
# Model of the commands oardel, oarhold and oarresume

`oar/cli/oardel.py`, `oar/cli/oarhold.py`, `oar/cli/oarresume.py`, `oar/cli/utils.py`, on the database of the jobs (Jobs). The user is the effective
one. The jobs of an array and those selected by a clause are inputs. The answers of the server to the notifications and of the
nodes to the signals are inputs. The texts of the messages are not modelled; the change of the best-effort type (`oardel -b`) is modelled apart
(Priority).
-/

namespace Oar.Cli

open Oar.Jobs

/-! ## Exit status -/

/-- The fields of `CommandReturns` used for the exit status (oar/cli/utils.py:14-19): the exit values of the messages in order, and
`final_exit`. -/
structure Ret where
  exits : List Int := []
  final : Int := 0
  deriving DecidableEq

/-- The loop of `get_exit_value` (oar/cli/utils.py:41-50): the value returned and `final_exit`. -/
def exitLoop : List Int → Int → Int → Int × Int
  | [], _, f => (f, f)
  | e :: es, prev, f =>
    if e ≠ 0 then
      if prev ≠ 0 ∧ prev ≠ e then (15, f) else exitLoop es e e
    else exitLoop es prev f

/-- Models `get_exit_value` (oar/cli/utils.py:39-51): the value, and the object after the call. -/
def exitValue (r : Ret) : Int × Ret :=
  if r.final = 0 then ((exitLoop r.exits 0 0).1, { r with final := (exitLoop r.exits 0 0).2 }) else (r.final, r)

/-- What a command does: the database, the messages, the notifications sent to the server; `raised`: the command stopped on an exception. -/
structure Out where
  db : DB
  ret : Ret
  sent : List String
  raised : Bool := false
  deriving DecidableEq

/-- The arguments that select the jobs: identifiers, jobs of the array given, jobs of the clause given. -/
structure Sel where
  ids : List Nat := []
  array : Option (List Nat) := none
  sql : Option (List Nat) := none

/-- The jobs treated (oar/cli/oardel.py:57-74, oar/cli/oarhold.py:35-51): `.error r` is a return. -/
def select (s : Sel) : Except Ret (List Nat) :=
  if s.ids = [] ∧ s.sql = none ∧ s.array = none then .error ⟨[], 1⟩
  else
    match s.array, s.sql with
    | some [], _ => .error ⟨[0], 0⟩
    | _, some [] => .error ⟨[0], 0⟩
    | _, some l => .ok l
    | some l, none => .ok l
    | none, none => .ok s.ids

/-- The jobs treated by oarresume (oar/cli/oarresume.py:29-44): it goes on with an empty selection. -/
def selectResume (s : Sel) : Except Ret (List Nat) :=
  if s.ids = [] ∧ s.sql = none ∧ s.array = none then .error ⟨[], 1⟩
  else
    match s.array, s.sql with
    | _, some l => .ok l
    | some l, none => .ok l
    | none, none => .ok s.ids

/-! ## oardel -/

/-- The variables of the loop of oardel. -/
structure Del where
  db : DB
  exits : List Int := []
  notify : Bool := false
  registered : List Nat := []

/-- One job (oar/cli/oardel.py:237-259). -/
def delOne (now : Int) (user : String) (s : Del) (jid : Nat) : Del :=
  let r := fragJob s.db now jid user
  if r.1 = -1 then { s with db := r.2, exits := s.exits ++ [0, 1] }
  else if r.1 = -2 then { s with db := r.2, exits := s.exits ++ [0, 6], notify := true }
  else if r.1 = -3 then { s with db := r.2, exits := s.exits ++ [0, 7] }
  else { db := r.2, exits := s.exits ++ [0, 0], notify := true, registered := s.registered ++ [jid] }

/-- Models `oardel` without option (oar/cli/oardel.py:233-275); `up`: the first notification is accepted. -/
def oardel (db : DB) (now : Int) (user : String) (up : Bool) (s : Sel) : Out :=
  match select s with
  | .error r => ⟨db, r, [], false⟩
  | .ok ids =>
    let d := ids.foldl (delOne now user) { db := db }
    if d.notify then
      if up then ⟨d.db, ⟨d.exits ++ [0], 0⟩, ["ChState", "Qdel"], false⟩
      else ⟨d.db, ⟨d.exits ++ [2], 0⟩, ["ChState"], false⟩
    else ⟨d.db, ⟨d.exits, 0⟩, [], false⟩

/-- The inputs of the signals: the hosts of the jobs, and whether the node answers. -/
structure Nodes where
  hosts : Nat → List String
  answers : Nat → Bool

/-- `get_job_types` of a job (oar/lib/job_handling.py:1624-1631): empty for a job that does not exist. -/
def typesOf (db : DB) (jid : Nat) : List String :=
  match db.job? jid with
  | some row => row.types
  | none => []

/-- The exit value of a refused signal (oar/cli/oardel.py:98-105). -/
def signalCode (error : Nat) : Int := if error = 1 then 1 else if error = 3 then 7 else 5

/-- The loop of `oardel --checkpoint` and `oardel --signal` (oar/cli/oardel.py:83-147). The signal given to `ask_checkpoint_signal_job` is "SIGUSR2"
or "SIGURG". An empty list of hosts raises after the request has been registered, except for the cosystem and deploy types. -/
def signalLoop (n : Nodes) (checkpoint : Bool) (user : String) : DB → List Int → List Nat → Out
  | db, ex, [] => ⟨db, ⟨ex, 0⟩, [], false⟩
  | db, ex, j :: js =>
    let r := askCheckpoint db j (some (if checkpoint then "SIGUSR2" else "SIGURG")) user
    if r.1 > 0 then
      signalLoop n checkpoint user r.2 (ex ++ [0, 0, signalCode r.1]) js
    else
      if "cosystem" ∉ typesOf db j ∧ "deploy" ∉ typesOf db j ∧ n.hosts j = [] then ⟨r.2, ⟨ex ++ [0], 0⟩, [], true⟩
      else if n.answers j then
        signalLoop n checkpoint user (addEvent r.2 (if checkpoint then "CHECKPOINT_SUCCESS" else "SIG_SUCCESS") j) (ex ++ [0, 0]) js
      else
        signalLoop n checkpoint user (addEvent r.2 (if checkpoint then "CHECKPOINT_ERROR" else "SIG_ERROR") j) (ex ++ [0, 0, 3]) js

/-- `oardel --checkpoint` or `oardel --signal` (oar/cli/oardel.py:76-147). -/
def oardelSignal (db : DB) (n : Nodes) (checkpoint : Bool) (user : String) (s : Sel) : Out :=
  match select s with
  | .error r => ⟨db, r, [], false⟩
  | .ok ids => signalLoop n checkpoint user db [] ids

/-- Models `get_job_duration_in_state` (oar/lib/job_handling.py:1817-1831). -/
def durationIn (db : DB) (jid : Nat) (st : String) (now : Int) : Int :=
  ((db.log.filter (fun r => r.jid == jid && r.state == st)).map (fun r => (if r.stop = 0 then now else r.stop) - r.start)).sum

/-- The loop of `oardel --force-terminate-finishing-job` (oar/cli/oardel.py:159-182): the database, the exit values, and whether it ended;
`get_job_state` raises for a job that does not exist (oar/lib/job_handling.py:2699-2701). -/
def forceLoop (now maxd : Int) : DB → List Int → List Nat → DB × List Int × Bool
  | db, ex, [] => (db, ex, true)
  | db, ex, j :: js =>
    match db.job? j with
    | none => (db, ex ++ [0], false)
    | some row =>
      if row.state = "Finishing" then
        if durationIn db j "Finishing" now > maxd then
          forceLoop now maxd (addEvent db "FORCE_TERMINATE_FINISHING_JOB" j) (ex ++ [0, 0]) js
        else forceLoop now maxd db (ex ++ [0, 11]) js
      else forceLoop now maxd db (ex ++ [0, 10]) js

/-- `oardel --force-terminate-finishing-job` (oar/cli/oardel.py:149-186). -/
def oardelForce (db : DB) (now maxd : Int) (user : String) (up : Bool) (s : Sel) : Out :=
  match select s with
  | .error r => ⟨db, r, [], false⟩
  | .ok ids =>
    if user ≠ "oar" ∧ user ≠ "root" then ⟨db, ⟨[8], 0⟩, [], false⟩
    else
      let d := forceLoop now maxd db [] ids
      if d.2.2 then ⟨d.1, ⟨if up then d.2.1 else d.2.1 ++ [2], 0⟩, ["ChState"], false⟩ else ⟨d.1, ⟨d.2.1, 0⟩, [], true⟩

/-! ## oarhold, oarresume -/

/-- The first test of oarhold with `-r` (oar/cli/oarhold.py:54-71): the exit value of the return. -/
def runningRefused (cpuset running : Bool) (db : DB) (jid : Nat) : Bool :=
  running && (!cpuset || decide ("cosystem" ∈ typesOf db jid) || decide ("deploy" ∈ typesOf db jid))

/-- The loop of oarhold (oar/cli/oarhold.py:53-98): the database, the exit values, and whether the loop ended without return. -/
def holdLoop (cpuset allowed running : Bool) (user : String) : DB → List Int → List Nat → DB × List Int × Bool
  | db, ex, [] => (db, ex, true)
  | db, ex, j :: js =>
    if runningRefused cpuset running db j then (db, ex ++ [2], false)
    else
      let r := holdJob db allowed j running user
      if r.1 ≠ 0 then (r.2, ex ++ [1], false) else holdLoop cpuset allowed running user r.2 (ex ++ [0]) js

/-- Models `oarhold` (oar/cli/oarhold.py:24-101). -/
def oarhold (db : DB) (cpuset allowed running : Bool) (user : String) (s : Sel) : Out :=
  match select s with
  | .error r => ⟨db, r, [], false⟩
  | .ok ids =>
    let d := holdLoop cpuset allowed running user db [] ids
    ⟨d.1, ⟨d.2.1, 0⟩, if d.2.2 ∧ ids ≠ [] then ["ChState"] else [], false⟩

/-- The loop of oarresume (oar/cli/oarresume.py:46-73). -/
def resumeLoop (allowed : Bool) (user : String) : DB → List Int → List Nat → DB × List Int × Bool
  | db, ex, [] => (db, ex, true)
  | db, ex, j :: js =>
    let r := resumeJob db allowed j user
    if r.1 ≠ 0 then (r.2, ex ++ [1], false) else resumeLoop allowed user r.2 (ex ++ [0]) js

/-- Models `oarresume` (oar/cli/oarresume.py:22-73). -/
def oarresume (db : DB) (allowed : Bool) (user : String) (s : Sel) : Out :=
  match selectResume s with
  | .error r => ⟨db, r, [], false⟩
  | .ok ids =>
    let d := resumeLoop allowed user db [] ids
    ⟨d.1, ⟨d.2.1, 0⟩, if d.2.2 then ["ChState"] else [], false⟩

/-- The request `POST /jobs/{id}/{hold}/new` (oar/api/routers/job.py:521-539), for a word that is not that of a route declared before it. -/
def apiHold (db : DB) (cpuset allowed : Bool) (user : String) (jid : Nat) (word : String) : Out :=
  oarhold db cpuset allowed (word == "rhold") user { ids := [jid] }

end Oar.Cli
