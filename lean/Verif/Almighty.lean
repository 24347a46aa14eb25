/-!
# Model of the central automaton and of the launcher of executors

`oar/modules/almighty.py` and `oar/modules/bipbip_commander.py`.
-/

namespace Oar.Almighty

/-- The states of the automaton (oar/modules/almighty.py:478-531, 379, 416); `Init` ends with the constructor. -/
inductive State
  | qget | scheduler | timeUpdate | villains | checkNodes | leon | changeState
  deriving DecidableEq, Repr

/-- The attributes of `Almighty` (oar/modules/almighty.py:212-220) and the global `finishTag`. -/
structure St where
  state : State
  queue : List String
  lastSched : Int
  lastVillains : Int
  lastNodes : Int
  wanted : Bool
  finish : Bool
  deriving DecidableEq, Repr

/-- The options (oar/modules/almighty.py:224-254): SCHEDULER_MIN_TIME_BETWEEN_2_CALLS and FINAUD_FREQUENCY. -/
structure Cfg where
  minSched : Int
  finaud : Int

/-- What the environment provides during one turn of the loop: a signal, the death of Greta, the dates returned by the first and
second calls to `get_time`, the exit code of the module launched, the message received (`none`: nothing before the timeout). -/
structure Inp where
  stop : Bool := false
  greta : Bool := false
  now : Int
  fin : Int
  rc : Int := 0
  msg : Option String := none

/-- What can be observed from outside: the modules launched (with the dates of the beginning and of the end for the scheduler), the
commands taken from the queue, the end of the server. -/
inductive Ev
  | sched (start stop : Int)
  | villains
  | checkNodes
  | leon
  | changeState
  | took (cmd : String)
  | stopped
  deriving DecidableEq, Repr

/-- The initial attributes (oar/modules/almighty.py:212-220). -/
def init : St := ⟨.qget, [], 0, 0, 0, false, false⟩

/-- Models `add_command` (oar/modules/almighty.py:320-333), for commands that are plain words: the command is used as a regular
expression by the code. -/
def addCommand (q : List String) (c : String) : List String := if c ∈ q then q else q ++ [c]

/-- The commands that start the scheduler (oar/modules/almighty.py:392-401). -/
def schedCmds : List String := ["Qsub", "Qsub -I", "Term", "BipBip", "Scheduling", "Qresume", "Walltime"]

/-- The state chosen for a command (oar/modules/almighty.py:392-413); unknown commands leave the automaton in `Qget`. -/
def target (c : String) : State :=
  if c ∈ schedCmds then .scheduler
  else if c = "Qdel" then .leon
  else if c = "Villains" then .villains
  else if c = "Finaud" then .checkNodes
  else if c = "Time" then .timeUpdate
  else if c = "ChState" then .changeState
  else .qget

/-- Models `time_update` (oar/modules/almighty.py:266-293); the other timeouts are 60 and 10 seconds. -/
def timeUpdate (cfg : Cfg) (s : St) (now : Int) : List String :=
  let q1 := if now ≥ s.lastSched + 60 ∨ s.wanted = true ∧ now ≥ s.lastSched + cfg.minSched then addCommand s.queue "Scheduling" else s.queue
  let q2 := if now ≥ s.lastVillains + 10 then addCommand q1 "Villains" else q1
  if now ≥ s.lastNodes + cfg.finaud ∧ cfg.finaud > 0 then addCommand q2 "Finaud" else q2

/-- Models `read_commands` and `qget` (oar/modules/almighty.py:299-318, 335-353): one message is read, "Time" at the timeout. -/
def readCommands (q : List String) (msg : Option String) : List String := addCommand q (msg.getD "Time")

/-- The command taken from the queue and the rest (oar/modules/almighty.py:386-389): "Time" is skipped when another command waits. -/
def take : List String → Option (String × List String)
  | [] => none
  | c :: q => if c = "Time" then (match q with | [] => some (c, []) | d :: q' => some (d, q')) else some (c, q)

/-- The state `Qget` (oar/modules/almighty.py:379-413). -/
def stepQget (s : St) (i : Inp) : St × List Ev :=
  match take (if s.queue = [] then readCommands s.queue i.msg else s.queue) with
  | none => (s, [])
  | some (c, q) => ({ s with queue := q, state := target c }, [.took c])

/-- The state `Scheduler` (oar/modules/almighty.py:416-475). -/
def stepScheduler (cfg : Cfg) (s : St) (i : Inp) : St × List Ev :=
  if i.now ≥ s.lastSched + cfg.minSched then
    let s1 := { s with wanted := false, lastSched := i.fin }
    (if i.rc = 0 then { s1 with state := .changeState }
     else if i.rc = 1 then s1
     else if i.rc = 2 then { s1 with state := .leon }
     else { s1 with finish := true }, [.sched i.now i.fin])
  else ({ s with wanted := true, state := .timeUpdate }, [])

/-- The other states (oar/modules/almighty.py:478-531). -/
def stepOther (cfg : Cfg) (s : St) (i : Inp) : St × List Ev :=
  match s.state with
  | .timeUpdate => ({ s with queue := timeUpdate cfg s i.now, state := .qget }, [])
  | .villains =>
    let s1 := { s with lastVillains := i.fin }
    (if i.rc = 1 then { s1 with state := .leon } else if i.rc = 0 then { s1 with state := .timeUpdate } else { s1 with finish := true },
     [.villains])
  | .checkNodes =>
    let s1 := { s with lastNodes := i.fin }
    (if i.rc = 1 then { s1 with state := .changeState } else if i.rc = 0 then { s1 with state := .timeUpdate }
     else { s1 with finish := true }, [.checkNodes])
  | .leon => ({ s with state := .timeUpdate, queue := if i.rc = 1 then addCommand s.queue "Term" else s.queue }, [.leon])
  | .changeState =>
    (if i.rc = 2 then { s with state := .leon, queue := addCommand s.queue "Term" }
     else if i.rc = 1 then { s with state := .scheduler }
     else if i.rc = 0 then { s with state := .timeUpdate }
     else { s with finish := true }, [.changeState])
  | _ => (s, [])

/-- One turn of the loop of `Almighty.run` (oar/modules/almighty.py:355-535). After `stopped` the server is no longer running: the
turns do nothing. -/
def step (cfg : Cfg) (s : St) (i : Inp) : St × List Ev :=
  if s.finish = true ∨ i.stop = true then ({ s with finish := true }, [.stopped])
  else if i.greta then (s, [])
  else
    match s.state with
    | .qget => stepQget s i
    | .scheduler => stepScheduler cfg s i
    | _ => stepOther cfg s i

/-- A run of the loop: the final attributes and what was observed. -/
def run (cfg : Cfg) : St → List Inp → St × List Ev
  | s, [] => (s, [])
  | s, i :: is => ((run cfg (step cfg s i).1 is).1, (step cfg s i).2 ++ (run cfg (step cfg s i).1 is).2)

end Oar.Almighty
