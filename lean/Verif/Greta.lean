import Verif.Tools

/-!
# Model of the energy saving module

`oar/modules/greta.py`: `fill_timeouts`, `get_timeout`, `Greta.run` and `WindowForker`.
-/

namespace Oar.Greta

open Oar.Tools

/-! ## Timeouts -/

/-- `d[k] = v` for a dict: the place of a known key is kept. -/
def put {κ β : Type} [DecidableEq κ] (k : κ) (v : β) : List (κ × β) → List (κ × β)
  | [] => [(k, v)]
  | e :: l => if e.1 = k then (k, v) :: l else e :: put k v l

/-- The words of a text: `re.split(r"\s+", …)` of the stripped text, without the empty ones. -/
def wordsF : List Char → List Char → List (List Char)
  | [], w => if w = [] then [] else [w]
  | c :: l, w => if c.isWhitespace then (if w = [] then wordsF l [] else w :: wordsF l []) else wordsF l (w ++ [c])

/-- A couple `nb:timeout` (oar/modules/greta.py:85-88). -/
def couple (w : List Char) : Option (Nat × Nat) :=
  match split ':' w with
  | [a, b] => (pyNat a).bind (fun x => (pyNat b).map (fun y => (x, y)))
  | _ => none

/-- The couples of a text, in order; `none`: the exception raised for an invalid couple, since the warning concatenates a list or an
unbound variable (oar/modules/greta.py:83-99). -/
def couples : List (List Char) → List (Nat × Nat) → Option (List (Nat × Nat))
  | [], acc => some acc
  | w :: l, acc => match couple w with
    | some x => couples l (put x.1 x.2 acc)
    | none => none

/-- Models `fill_timeouts` (oar/modules/greta.py:67-98) for a text. -/
def fillTimeouts (s : List Char) : Option (List (Nat × Nat)) :=
  match wordsF s [] with
  | [] => none
  | [w] => match pyNat w with
    | some t => some [(1, t)]
    | none => couples [w] []
  | ws => couples ws []

def insertKey (x : Nat × Nat) : List (Nat × Nat) → List (Nat × Nat)
  | [] => [x]
  | y :: l => if x.1 ≤ y.1 then x :: y :: l else y :: insertKey x l

def sortKeys : List (Nat × Nat) → List (Nat × Nat)
  | [] => []
  | x :: l => insertKey x (sortKeys l)

/-- The loop of `get_timeout` (oar/modules/greta.py:105-108). -/
def scan (n : Nat) : List (Nat × Nat) → Nat → Nat
  | [], t => t
  | x :: l, t => if n < x.1 then t else scan n l x.2

/-- Models `get_timeout` (oar/modules/greta.py:102-109); `none` is the KeyError when there is no timeout for one node. -/
def getTimeout (ts : List (Nat × Nat)) (n : Nat) : Option Nat := (ts.lookup 1).map (fun t => scan n (sortKeys ts) t)

/-! ## Main loop -/

inductive Cmd where
  | wakeup
  | halt
  deriving DecidableEq

/-- The state of Greta: the nodes with a command in progress (`nodes_list_command_running`) and its timeout, the
remembered commands (`nodes_list_to_remind`), and the executors (node, command, date). -/
structure St where
  running : List (String × Cmd × Int)
  remind : List (String × Cmd)
  exec : List (String × Cmd × Int)
  deriving DecidableEq

/-- What is read in the database during a cycle: for each class of ENERGY_SAVING_NODES_KEEPALIVE the number of nodes to keep and the
rows (address, state, next state) of its resources, without repetition; the occupied nodes, those which can be woken up, the alive ones; the date. -/
structure View where
  classes : List (Nat × List (String × String × String))
  occupied : List String
  can : List String
  alive : List String
  now : Int

def keys {β : Type} (l : List (String × β)) : List String := l.map (·.1)

/-- The nodes of a class which are alive (oar/modules/greta.py:306-310). -/
def aliveOf (rows : List (String × String × String)) : List String := (rows.filter (fun r => r.2.1 = "Alive" || r.2.2 = "Alive")).map (·.1)

/-- Its idle nodes (oar/modules/greta.py:315-317). -/
def idleOf (v : View) (rows : List (String × String × String)) : List String := (aliveOf rows).filter (fun n => !v.occupied.contains n)

/-- Its nodes which are not alive (oar/modules/greta.py:328-334). -/
def downOf (rows : List (String × String × String)) : List String := (rows.map (·.1)).filter (fun n => !(aliveOf rows).contains n)

/-- The nodes to wake up to keep enough nodes alive (oar/modules/greta.py:336-366). -/
def keepWake (running can : List String) : List String → Int → List (String × Cmd) → List (String × Cmd)
  | [], _, p => p
  | n :: l, ok, p =>
    if 0 ≤ ok then p
    else if can.contains n then keepWake running can l (ok + 1) (if running.contains n then p else put n .wakeup p)
    else keepWake running can l ok p

/-- For all the classes (oar/modules/greta.py:293-366). -/
def keepAll (v : View) (running : List String) (p : List (String × Cmd)) : List (String × Cmd) :=
  v.classes.foldl (fun p c => keepWake running v.can (downOf c.2) ((idleOf v c.2).length - c.1) p) p

/-- A booting node which is up or too late (oar/modules/greta.py:375-398). -/
def bootEnds (v : View) (e : String × Cmd × Int) : Bool := e.2.1 = .wakeup && (v.alive.contains e.1 || decide (v.now > e.2.2))

/-- The nodes suspected since they did not wake up (oar/modules/greta.py:385-392). -/
def late (v : View) (running : List (String × Cmd × Int)) : List String :=
  (running.filter (fun e => e.2.1 = .wakeup && !v.alive.contains e.1 && decide (v.now > e.2.2))).map (·.1)

/-- The remembered commands are processed again (oar/modules/greta.py:400-413): they are never removed from the list. -/
def remindAll (running : List String) (remind : List (String × Cmd)) (p : List (String × Cmd)) : List (String × Cmd) :=
  remind.foldl (fun p e => if running.contains e.1 then p else put e.1 e.2 p) p

/-- The nodes of the message (oar/modules/greta.py:415-443). -/
def receive (running : List (String × Cmd × Int)) (cmd : Cmd) : List String → List (String × Cmd) → List (String × Cmd) → List (String × Cmd) × List (String × Cmd)
  | [], p, rem => (p, rem)
  | n :: l, p, rem => match running.lookup n with
    | none => receive running cmd l (put n cmd p) rem
    | some x => if cmd ≠ x.1 then receive running cmd l p (put n cmd rem) else receive running cmd l p rem

/-- A class during the launching: minimum, nodes and `current_idle`. -/
structure Cl where
  min : Int
  nodes : List String
  idle : Int

/-- The creation of the commands (oar/modules/greta.py:445-513): the commands to launch and the nodes which become running. -/
def launch (limit : Int) : List (String × Cmd) → List Cl → List (Cmd × String) × List (String × Cmd × Int)
  | [], _ => ([], [])
  | (n, .wakeup) :: l, cls => ((Cmd.wakeup, n) :: (launch limit l cls).1, (n, Cmd.wakeup, limit) :: (launch limit l cls).2)
  | (n, .halt) :: l, cls =>
    if cls.any (fun c => c.nodes.contains n && decide (c.idle ≤ c.min)) then launch limit l cls
    else
      let cls' : List Cl := cls.map (fun c => if c.nodes.contains n then { c with idle := c.idle - 1 } else c)
      ((Cmd.halt, n) :: (launch limit l cls').1, (n, Cmd.halt, -1) :: (launch limit l cls').2)

def classesOf (v : View) : List Cl := v.classes.map (fun c => (⟨c.1, c.2.map (·.1), (idleOf v c.2).length⟩ : Cl))

/-- The list to process in a cycle with the message `cmd nodes` (none for CHECK), and the remembered commands. -/
def processOf (v : View) (s : St) (msg : Option (Cmd × List String)) : List (String × Cmd) × List (String × Cmd) :=
  let running := s.running.filter (fun e => !bootEnds v e)
  let p := remindAll (keys running) s.remind (keepAll v (keys s.running) [])
  match msg with
  | none => (p, s.remind)
  | some m => receive running m.1 ((late v s.running).foldl (fun l n => l.erase n) m.2) p s.remind

/-- One cycle after the check of the executors (oar/modules/greta.py:270-525): the state, the commands launched and the suspected nodes.
`none` is the exception of `get_timeout`. -/
def cycle (ts : List (Nat × Nat)) (v : View) (s : St) (msg : Option (Cmd × List String)) : Option (St × List (Cmd × String) × List String) :=
  let running := s.running.filter (fun e => !bootEnds v e)
  let pr := processOf v s msg
  (getTimeout ts (running.length + pr.1.length)).map (fun (t : Nat) =>
    let r := launch (v.now + (t : Int)) pr.1 (classesOf v)
    (⟨r.2.foldl (fun l e => put e.1 e.2 l) running, pr.2, s.exec ++ r.1.map (fun x => (x.2, x.1, v.now))⟩, r.1, late v s.running))

/-- `check_executors` (oar/modules/greta.py:616-663) with the exit codes of the executors which are ready: the nodes
running, the executors left and the suspected nodes. `none` is the KeyError of `del nodes_list_running[node]`. -/
def checkExec (window now : Int) : List (String × Cmd × Int) → List (Option Int) → List (String × Cmd × Int) →
    Option (List (String × Cmd × Int) × List (String × Cmd × Int) × List String)
  | [], _, run => some (run, [], [])
  | (n, c, d) :: l, st, run =>
    match st.headD none with
    | some e =>
      if e ≠ 0 then (checkExec window now l st.tail run).map (fun x => (x.1, x.2.1, n :: x.2.2))
      else if c = .halt then
        (if (keys run).contains n then checkExec window now l st.tail (run.filter (fun x => x.1 ≠ n)) else none)
      else checkExec window now l st.tail run
    | none =>
      if now - d > window then
        if c = .halt then
          (if (keys run).contains n then (checkExec window now l st.tail (run.filter (fun x => x.1 ≠ n))).map (fun x => (x.1, x.2.1, n :: x.2.2)) else none)
        else checkExec window now l st.tail run
      else (checkExec window now l st.tail run).map (fun x => (x.1, (n, c, d) :: x.2.1, x.2.2))

/-- One turn of the loop of `run` (oar/modules/greta.py:264-546). -/
def turn (ts : List (Nat × Nat)) (window : Int) (st : List (Option Int)) (v : View) (s : St) (msg : Option (Cmd × List String)) :
    Option (St × List (Cmd × String) × List String) :=
  match checkExec window v.now s.exec st s.running with
  | none => none
  | some (run, exec, sus) => (cycle ts v ⟨run, s.remind, exec⟩ msg).map (fun x => (x.1, x.2.1, sus ++ x.2.2))

/-- The state after a restart (oar/modules/greta.py:179-195, 530-541): the executors are lost. -/
def restart (s : St) : St := { s with exec := [] }

end Oar.Greta
