import Verif.NodeChange

/-!
# Model of the launch of a job and of the end of its execution

`oar/modules/bipbip.py` (whole file), `check_end_of_job` and `job_finishing_sequence` of `oar/lib/job_handling.py` with the
hosts and the exceptions, `pingchecker_exec_command` of `oar/lib/tools.py`. The remote commands (cpuset, pings, scripts,
oarexec) are inputs: their results are given by `World`, and the calls are recorded in a list of actions. Not modelled: the
logs, the messages written in the job, the notifications (except the one whose result is used), the content of the data
sent to the nodes, the indexes of `assigned_resources`.
-/

namespace Oar.Bipbip

open Oar.Jobs

/-- The result of a script of the administrator run on the server (oar/modules/bipbip.py:584-640,
oar/lib/job_handling.py:2375-2406). -/
inductive Script
  | notSet | ok | cannotRun | failed | timeout
  deriving DecidableEq, Repr

/-- The host argument of an event of the finishing sequence (oar/lib/job_handling.py:2572-2578): a pair has no host, a triple
has a list or the value `None`. -/
inductive HostArg
  | pair | nothing | hosts (l : List String)
  deriving DecidableEq, Repr

/-- The registration of the events (oar/lib/job_handling.py:2572-2578): `add_new_event_with_host` raises when the hosts are
not a list (oar/lib/event.py:43-44); its insertion is then not committed. The flag tells that it raised. -/
def register (jid : Nat) : List (String × HostArg) → DB → DB × Bool
  | [], db => (db, false)
  | (ty, .pair) :: l, db => register jid l (addEvent db ty jid)
  | (ty, .hosts hs) :: l, db => register jid l (addEventHosts db ty jid hs)
  | (_, .nothing) :: _, db => (db, true)

/-- What the finishing sequence meets: the server epilogue, the nodes with a cpuset when the feature is configured, the
cleaning of the cpusets, whether the nodes are pinged at the end of the jobs, the hosts of the job and the ping. -/
structure EndWorld where
  epilogue : Script
  cpusetNodes : List String
  clean : Bool × List String
  pingAtEnd : Bool
  hosts : List String
  ping : Bool × List String

/-- The event of the server epilogue (oar/lib/job_handling.py:2375-2406). -/
def epilogueEvents : Script → List (String × HostArg)
  | .failed => [("SERVER_EPILOGUE_EXIT_CODE_ERROR", .nothing)]
  | .timeout => [("SERVER_EPILOGUE_TIMEOUT", .nothing)]
  | _ => []

/-- The event of the cleaning of the cpusets (oar/lib/job_handling.py:2408-2533). -/
def cleanEvents (w : EndWorld) (types : List String) : List (String × HostArg) :=
  if "deploy" ∉ types ∧ "cosystem" ∉ types ∧ "noop" ∉ types ∧ w.cpusetNodes ≠ [] then
    if w.clean.1 = false then [("CPUSET_MANAGER_FILE", .pair)]
    else if w.clean.2 ≠ [] then [("CPUSET_CLEAN_ERROR", .hosts w.clean.2)]
    else []
  else []

/-- The event of the ping of the nodes (oar/lib/job_handling.py:2535-2570). -/
def pingEvents (w : EndWorld) (types : List String) : List (String × HostArg) :=
  if w.pingAtEnd = true ∧ "deploy" ∉ types ∧ "noop" ∉ types then
    if w.ping.1 = false then [("PING_CHECKER_NODE_SUSPECTED_END_JOB", .hosts w.hosts)]
    else if w.ping.2 ≠ [] then [("PING_CHECKER_NODE_SUSPECTED_END_JOB", .hosts w.ping.2)]
    else []
  else []

/-- Models `job_finishing_sequence` (oar/lib/job_handling.py:2374-2584). -/
def finishSeq (w : EndWorld) (db : DB) (jid : Nat) (types : List String) (evs : List String) : DB × Bool :=
  register jid (evs.map (fun e => (e, HostArg.pair)) ++ epilogueEvents w.epilogue ++ cleanEvents w types ++ pingEvents w types) db

/-- The exit values of oarexec whose event names the first host of the job, `hosts[0]`
(oar/lib/job_handling.py:2133-2359). -/
def namesHost (error : Int) : Bool :=
  !(error = 0 ∨ error = 1 ∨ error = 2 ∨ error = 3 ∨ error = 5 ∨ error = 6 ∨ error = 22 ∨ error = 33 ∨ error = 34 ∨ error = 40 ∨
    error = 42 ∨ error = 41)

/-- The changes of `check_end_of_job` before its events (oar/lib/job_handling.py:2118-2131). -/
def endMarks (db : DB) (now : Int) (jid : Nat) (exit : Option Int) : DB :=
  match exit with
  | some c => (setJobState (setFinish db now jid) now jid "Finishing").updJob jid (fun j => { j with exitCode := some c })
  | none => setJobState (setFinish db now jid) now jid "Finishing"

/-- Models `check_end_of_job` (oar/lib/job_handling.py:2100-2371) with its exceptions: `hosts[0]` raises when the job has no
host. `exit` is the exit value of the script when it is an integer. -/
def endOfJob (w : EndWorld) (db : DB) (now : Int) (keyClash : Bool) (jid : Nat) (exit : Option Int) (error : Int)
    (hosts : List String) : DB × Bool :=
  match db.job? jid with
  | none => (db, true)
  | some j =>
    if j.state = "Running" ∨ j.state = "Launching" ∨ j.state = "Suspended" ∨ j.state = "Resuming" then
      if namesHost error = true ∧ hosts = [] then (endMarks db now jid exit, true)
      else
        finishSeq w (endResubmit (endMarks db now jid exit) now keyClash j error).1 jid j.types
          (endResubmit (endMarks db now jid exit) now keyClash j error).2
    else (db, false)

/-! ## Launch -/

/-- A remote command started by bipbip; `callLeon` is the command "Qdel" sent to the central automaton, which starts Leon. -/
inductive Act
  | init (nodes : List String) | clean (nodes : List String) | ping (hosts : List String) | prologue | oarexec (node : String)
  | callLeon
  deriving DecidableEq, Repr

/-- The arguments of bipbip after the job id (oar/modules/bipbip.py:46-69): the exit value of oarexec when it is given and
not empty (`some none`: not an integer), the exit value of the script, the challenge. -/
structure Args where
  exit : Option (Option Int) := none
  script : Option (Option Int) := none
  challenge : Option String := none
  deriving DecidableEq, Repr

/-- What bipbip meets: the challenge of the job, its current hosts, the nodes with a cpuset (empty when the feature is not
configured), the results of the remote commands, the two runs of the server prologue, the result of the start of oarexec, the
result of the notification of an interactive user, the hosts of the special jobs, the end of the job; the dates; the ssh key
test of a resubmission. `env i` is what the other parts of the system do to the database before the part `i` of the launch. -/
structure World where
  challenge : String
  hosts : List String
  cpusetNodes : List String
  init : Bool × List String
  clean : Bool × List String
  ping : Bool × List String
  prologue1 : Script
  prologue2 : Script
  oarexec : Bool
  notified : Bool
  cosystemHost : String
  deployHost : String
  atEnd : EndWorld
  now1 : Int
  now2 : Int
  keyClash : Bool
  env : Nat → DB → DB

/-- The outcome of a run: the database, the remote commands, the exit code, whether an exception ended the run. -/
structure Result where
  db : DB
  acts : List Act
  code : Nat
  raised : Bool

/-- The outcome of the checks: the hosts left, and whether the launch goes on, stops or raises. -/
inductive Verdict
  | go | stop | raise
  deriving DecidableEq, Repr

/-- See `checkNodes`. -/
structure Checked where
  db : DB
  acts : List Act
  hosts : List String
  verdict : Verdict

/-- The state of the checks after the cpuset part: the suspected hosts and the type of their event. -/
structure CpusetPart where
  db : DB
  acts : List Act
  hosts : List String
  bad : List String
  event : String

/-- The cpuset part of the launch (oar/modules/bipbip.py:209-338). -/
def cpusetPart (w : World) (db : DB) (j : JobRow) : CpusetPart :=
  if w.cpusetNodes = [] then ⟨db, [], w.hosts, [], ""⟩
  else if w.init.1 = false then ⟨addEvent db "CPUSET_MANAGER_FILE" j.id, [.init w.cpusetNodes], w.hosts, [], ""⟩
  else if 0 < w.init.2.length ∧ w.init.2.length < w.cpusetNodes.length then
    if j.reservation ≠ "None" then
      ⟨addEventHosts db "CPUSET_ERROR" j.id w.init.2, [.init w.cpusetNodes], w.hosts.filter (fun h => h ∉ w.init.2), [],
        "CPUSET_ERROR"⟩
    else
      ⟨db, [.init w.cpusetNodes, .clean (w.cpusetNodes.filter (fun h => h ∉ w.init.2))], w.hosts, w.init.2 ++ w.clean.2,
        "CPUSET_ERROR"⟩
  else ⟨db, [.init w.cpusetNodes], w.hosts, w.init.2, "CPUSET_ERROR"⟩

/-- The hosts suspected after the ping (oar/modules/bipbip.py:340-345): without answer in time, all of them. -/
def pingBad (w : World) (hosts : List String) : List String := if w.ping.1 = false then hosts else w.ping.2

/-- The end of the checks (oar/modules/bipbip.py:347-395), with suspected hosts `bad`. The event of a reservation without
any valid node is registered by a call without the session: it raises (oar/modules/bipbip.py:369-376). -/
def judge (db : DB) (acts : List Act) (hosts : List String) (j : JobRow) (bad : List String) (event : String) : Checked :=
  if bad = [] then ⟨db, acts, hosts, .go⟩
  else if j.reservation ≠ "None" then
    if hosts.filter (fun h => h ∉ bad) = [] then ⟨db, acts, hosts, .raise⟩
    else ⟨addEventHosts db event j.id bad, acts, hosts, .go⟩
  else ⟨addEventHosts db event j.id bad, acts, hosts, .stop⟩

/-- The checks of the nodes (oar/modules/bipbip.py:202-396). -/
def checkNodes (w : World) (db : DB) (j : JobRow) : Checked :=
  if "deploy" ∉ j.types ∧ "cosystem" ∉ j.types ∧ w.hosts ≠ [] then
    let c := cpusetPart w db j
    if c.bad = [] then
      judge c.db (c.acts ++ [.ping c.hosts]) c.hosts j (pingBad w c.hosts) "PING_CHECKER_NODE_SUSPECTED"
    else judge c.db c.acts c.hosts j c.bad c.event
  else ⟨db, [], w.hosts, .go⟩

/-- Models `call_server_prologue` (oar/modules/bipbip.py:584-640): the database and the exit code; its callers do not look at
the value returned. -/
def prologueDb (r : Script) (db : DB) (jid : Nat) : DB :=
  match r with
  | .failed => addEvent db "SERVER_PROLOGUE_EXIT_CODE_ERROR" jid
  | .timeout => addEvent db "SERVER_PROLOGUE_TIMEOUT" jid
  | _ => db

/-- The exit code set by the server prologue (oar/modules/bipbip.py:617, 637). -/
def prologueCode (r : Script) (code : Nat) : Nat := if r = .failed ∨ r = .timeout then 2 else code

/-- Whether the server prologue is run (oar/modules/bipbip.py:587). -/
def prologueActs (r : Script) : List Act := if r = .notSet then [] else [.prologue]

/-- The node where oarexec is started (oar/modules/bipbip.py:412-420). -/
def headNode (w : World) (j : JobRow) (hosts : List String) : String :=
  if "cosystem" ∈ j.types ∨ hosts = [] then w.cosystemHost
  else if "deploy" ∈ j.types then w.deployHost
  else hosts.headD ""

/-- The user of an interactive job could not be told that the job starts (oar/modules/bipbip.py:541-558). -/
def userLost (w : World) (j : JobRow) : Bool := j.jtype = "INTERACTIVE" ∧ j.reservation = "None" ∧ w.notified = false

/-- The last part of the launch (oar/modules/bipbip.py:525-582). When the user of an interactive job cannot be notified, Leon
is woken up but no deletion is registered. -/
def launch (w : World) (db : DB) (j : JobRow) (hosts : List String) (acts : List Act) (code : Nat) : Result :=
  if "noop" ∈ j.types then ⟨setJobState db w.now2 j.id "Running", acts, code, false⟩
  else if w.oarexec then
    ⟨setJobState db w.now2 j.id "Running", acts ++ [.oarexec (headNode w j hosts)] ++ (if userLost w j then [.callLeon] else []), code, false⟩
  else
    ⟨(endOfJob w.atEnd db w.now2 w.keyClash j.id none 50 hosts).1, acts ++ [.oarexec (headNode w j hosts)], code,
      (endOfJob w.atEnd db w.now2 w.keyClash j.id none 50 hosts).2⟩

/-- The launch after the checks (oar/modules/bipbip.py:398-582). -/
def afterChecks (w : World) (c : Checked) (j : JobRow) : Result :=
  let db1 := prologueDb w.prologue1 (w.env 2 c.db) j.id
  let db2 := prologueDb w.prologue2 (w.env 3 db1) j.id
  launch w (w.env 4 db2) j c.hosts (c.acts ++ prologueActs w.prologue1 ++ prologueActs w.prologue2)
    (prologueCode w.prologue2 (prologueCode w.prologue1 0))

/-- The launch of a job in state toLaunch (oar/modules/bipbip.py:165-582). -/
def launchJob (w : World) (db : DB) (j : JobRow) : Result :=
  let c := checkNodes w (w.env 1 (setJobState db w.now1 j.id "Launching")) j
  match c.verdict with
  | .go => afterChecks w c j
  | .stop => ⟨c.db, c.acts, 2, false⟩
  | .raise => ⟨c.db, c.acts, 0, true⟩

/-- The end of an execution (oar/modules/bipbip.py:110-163); `exit` is the exit value of oarexec. The log line raises without
the exit value of the script, the message of a wrong challenge raises without a challenge. -/
def reattach (w : World) (db : DB) (j : JobRow) (a : Args) (exit : Option Int) : Result :=
  match a.script, exit with
  | none, _ => ⟨db, [], 0, true⟩
  | some _, none => ⟨db, [], 2, false⟩
  | some s, some e =>
    if a.challenge = some w.challenge then
      ⟨(endOfJob w.atEnd db w.now1 w.keyClash j.id s e w.hosts).1, [], 0,
        (endOfJob w.atEnd db w.now1 w.keyClash j.id s e w.hosts).2⟩
    else if a.challenge = none then ⟨db, [], 0, true⟩
    else ⟨addEvent db "BIPBIP_CHALLENGE" j.id, [], 2, false⟩

/-- Models `BipBip.run` (oar/modules/bipbip.py:71-582). -/
def run (w : World) (db : DB) (jid : Nat) (a : Args) : Result :=
  if jid = 0 then ⟨db, [], 1, false⟩
  else match db.job? jid with
  | none => ⟨db, [], 0, true⟩
  | some j =>
    if a.exit ≠ none ∧ (j.state = "Launching" ∨ j.state = "Running" ∨ j.state = "Suspended" ∨ j.state = "Resuming") then
      reattach w db j a (a.exit.getD none)
    else if j.state = "toLaunch" then launchJob w db j
    else ⟨db, [], 1, false⟩

end Oar.Bipbip
