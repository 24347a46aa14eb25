/-!
# Model of the launcher of executors

`oar/modules/bipbip_commander.py`. The executors are processes: they are numbered in the order of their creation, and each of them
may end at any moment.
-/

namespace Oar.Commander

/-- A command received: the job, and the rest of the message (`cmd`, `args`). -/
structure Cmd where
  job : Nat
  what : String
  deriving DecidableEq, Repr

/-- Where the loop is: waiting for a message (oar/modules/bipbip_commander.py:155-175), in the inner loop (:176-212), in the
cleaning loop (:218-225) with the keys that remain to be looked at. -/
inductive Pc
  | recv
  | inner
  | clean (keys : List Nat)
  deriving DecidableEq, Repr

/-- The attributes of `BipbipCommander` (oar/modules/bipbip_commander.py:143-145): the commands to run and to requeue, the
dictionary of executors (job, number of the process); `blocking`: reception without timeout (`RCVTIMEO = -1`). Observed:
`received`, the messages in order of arrival, `started`, the command of each process in order of creation, `live`, whether the
process is alive. -/
structure St where
  pc : Pc
  queue : List Cmd
  requeue : List Cmd
  execs : List (Nat × Nat)
  blocking : Bool
  received : List Cmd
  started : List Cmd
  live : Nat → Bool

/-- The initial attributes (oar/modules/bipbip_commander.py:143-145); ZeroMQ sockets are blocking by default. -/
def init : St := ⟨.recv, [], [], [], true, [], [], fun _ => true⟩

/-- `self.bipbip_leon_executors.get(job_id)`. -/
def St.exec (s : St) (j : Nat) : Option Nat := (s.execs.find? (fun p => p.1 == j)).map Prod.snd

/-- Start a process for a command and record it in the dictionary (oar/modules/bipbip_commander.py:195-212); an entry of the same
job has been deleted just before, or replaced. -/
def St.start (s : St) (c : Cmd) : St :=
  { s with started := s.started ++ [c], execs := s.execs.filter (fun p => p.1 != c.job) ++ [(c.job, s.started.length)] }

/-- One turn of the inner loop for the popped command (oar/modules/bipbip_commander.py:180-212). -/
def St.treat (s : St) (c : Cmd) : St :=
  match s.exec c.job with
  | none => s.start c
  | some e => if s.live e = false then s.start c else { s with requeue := s.requeue ++ [c] }

/-- The guard of the inner loop (oar/modules/bipbip_commander.py:176-179). -/
def St.guard (max : Nat) (s : St) : Bool := !s.queue.isEmpty && decide (s.execs.length ≤ max)

/-- The steps of the loop (oar/modules/bipbip_commander.py:151-233), and the end of a process, possible at any moment. -/
inductive Step (max : Nat) : St → St → Prop
  /-- a message is received -/
  | recv (s : St) (c : Cmd) (h : s.pc = .recv) :
      Step max s { s with pc := .inner, queue := s.queue ++ [c], received := s.received ++ [c] }
  /-- nothing was received before the timeout -/
  | timeout (s : St) (h : s.pc = .recv) (hb : s.blocking = false) : Step max s { s with pc := .inner }
  /-- a command is popped and treated -/
  | turn (s : St) (c : Cmd) (q : List Cmd) (h : s.pc = .inner) (hg : s.guard max = true) (hq : s.queue = c :: q) :
      Step max s ({ s with queue := q }.treat c)
  /-- end of the inner loop: the commands to requeue are appended to the queue -/
  | leave (s : St) (h : s.pc = .inner) (hg : s.guard max = false) :
      Step max s { s with pc := .clean (s.execs.map Prod.fst), queue := s.queue ++ s.requeue, requeue := [] }
  /-- one turn of the cleaning loop -/
  | clean (s : St) (j : Nat) (js : List Nat) (e : Nat) (h : s.pc = .clean (j :: js)) (he : s.exec j = some e) :
      Step max s { s with pc := .clean js, execs := if s.live e = false then s.execs.filter (fun p => p.1 != j) else s.execs }
  /-- end of the loop: the reception is blocking when there is no command to run -/
  | done (s : St) (h : s.pc = .clean []) : Step max s { s with pc := .recv, blocking := s.queue.isEmpty }
  /-- a process ends -/
  | die (s : St) (e : Nat) (h : e < s.started.length) : Step max s { s with live := fun x => if x = e then false else s.live x }

/-- The states reachable from the start of the launcher. -/
inductive Reachable (max : Nat) : St → Prop
  | init : Reachable max init
  | step (s s' : St) (h : Reachable max s) (hs : Step max s s') : Reachable max s'

end Oar.Commander
