/-!
# Model of the repair of broken nodes

`oar/tools/oar_phoenix.py`. The status file is a dictionary from the names of the nodes to their last reboot; the broken nodes are the
first column of the rows selected (`get_nodes_with_given_sql`, oar/lib/node.py:188-196, whose rows are distinct triples
`(network_address, state, next_state)`: a name may come twice). The dates read by `time.time()` are inputs. The text of the commands and
the logs are not modelled.
-/

namespace Oar.Phoenix

/-- The value stored for a node: `{"soft_reboot": t}` or `{"hard_reboot": t}`. -/
inductive Boot where
  | soft (t : Int)
  | hard (t : Int)
  deriving DecidableEq

/-- The dictionary of the status file. -/
abbrev Status := List (String × Boot)

/-- A command sent. -/
inductive Cmd where
  | soft (node : String)
  | hard (node : String)
  deriving DecidableEq

/-- The inputs of a run: configuration (PHOENIX_MAX_REBOOTS, PHOENIX_SOFT_TIMEOUT), broken nodes, dates of the soft reboots, of the
tests of the delay, and of the hard reboots. -/
structure Run where
  max : Int
  timeout : Int
  broken : List String
  tSoft : String → Int
  tCheck : String → Int
  tHard : String → Int

/-- `status[node] = b`. -/
def set (s : Status) (n : String) (b : Boot) : Status := (s.filter (fun e => e.1 ≠ n)) ++ [(n, b)]

/-- Models `clean_status` (oar/tools/oar_phoenix.py:144-148). -/
def clean (s : Status) (broken : List String) : Status := s.filter (fun e => decide (e.1 ∈ broken))

/-- The common loop of `get_nodes_to_soft_reboot` and `get_nodes_to_hard_reboot` (oar/tools/oar_phoenix.py:150-176): the nodes that satisfy the
test, stopping when the counter reaches the maximum; `c` is the counter. -/
def take (max : Int) (test : String → Bool) : List String → Int → List String
  | [], _ => []
  | n :: ns, c =>
    if test n then
      if c + 1 ≥ max then [n] else n :: take max test ns (c + 1)
    else if c ≥ max then [] else take max test ns c

/-- `node[0] not in status`. -/
def isNew (s : Status) (n : String) : Bool := (s.lookup n).isNone

/-- The test of `get_nodes_to_hard_reboot` (oar/tools/oar_phoenix.py:170-171). -/
def isLate (r : Run) (s : Status) (n : String) : Bool :=
  match s.lookup n with
  | some (.soft t) => decide (r.tCheck n > t + r.timeout)
  | _ => false

/-- Models `soft_reboot_nodes` (oar/tools/oar_phoenix.py:179-185). -/
def softReboot (r : Run) (s : Status) (ns : List String) : Status := ns.foldl (fun s n => set s n (.soft (r.tSoft n))) s

/-- Models `hard_reboot_nodes` (oar/tools/oar_phoenix.py:189-196). -/
def hardReboot (r : Run) (s : Status) (ns : List String) : Status := ns.foldl (fun s n => set s n (.hard (r.tHard n))) s

/-- The nodes of the first step. -/
def softNodes (s : Status) (r : Run) : List String := take r.max (isNew (clean s r.broken)) r.broken 0

/-- The status after the first step. -/
def afterSoft (s : Status) (r : Run) : Status := softReboot r (clean s r.broken) (softNodes s r)

/-- The nodes of the second step. -/
def hardNodes (s : Status) (r : Run) : List String := take r.max (isLate r (afterSoft s r)) r.broken 0

/-- Models `main` (oar/tools/oar_phoenix.py:201-210): the status saved and the commands sent. -/
def run (s : Status) (r : Run) : Status × List Cmd :=
  (hardReboot r (afterSoft s r) (hardNodes s r), (softNodes s r).map Cmd.soft ++ (hardNodes s r).map Cmd.hard)

/-- A run that stops before saving its status. -/
def crashed (s : Status) (r : Run) : Status × List Cmd := (s, (run s r).2)

/-- A history: the runs, with the status saved at each one; the first one begins with the empty status (`init_status`,
oar/tools/oar_phoenix.py:130-138). -/
def history : Status → List Run → List (List Cmd)
  | _, [] => []
  | s, r :: rs => (run s r).2 :: history (run s r).1 rs

/-- The choice of the status file when the module is loaded (oar/tools/oar_phoenix.py:28-31): `none` is a `KeyError`. -/
def statusFile (config : String → Option String) : Option String :=
  if (config "PHOENIX_STATUS_FILE").isNone then some "/var/lib/oar/phoenix/oar_phoenix.state" else config "PHOENIX_DBFILE"

end Oar.Phoenix
