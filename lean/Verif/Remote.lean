import Verif.Tools

/-!
# Model of the results of the remote commands

`manage_remote_commands`, `launch_oarexec` (oar/lib/tools.py) and `get_cpuset_values` (oar/lib/job_handling.py).
Not modelled: taktuk, ssh and perl themselves; a letter or a digit outside of ASCII in the name of a host (`\w` and `\d` of Python accept them); the order of the rows of the query,
which the database does not specify (the theorems do not depend on it).
-/

namespace Oar.Remote

open Oar.Tools

/-- A character of a host in an answer: `[\w\.\-\d]` (oar/lib/tools.py:609). -/
def hostChar (c : Char) : Bool := c.isAlphanum || c == '_' || c == '.' || c == '-'

/-- The host of a line that reports a success (oar/lib/tools.py:609-611): `^STATUS ([\w\.\-\d]+) (\d+)$` with the second group "0". -/
def success (line : List Char) : Option (List Char) :=
  if (txt "STATUS ").isPrefixOf line then
    let r := line.drop 7
    let h := r.takeWhile hostChar
    if h ≠ [] ∧ r.dropWhile hostChar = txt " 0" then some h else none
  else none

/-- A line of the answer (oar/lib/tools.py:608-614). -/
def answered (bad : List (List Char)) (line : List Char) : List (List Char) :=
  match success line with
  | some h => bad.filter (fun x => x != h)
  | none => bad

/-- `manage_remote_commands` (oar/lib/tools.py:535-618): whether the command has ended, and the hosts without success. `none`: taktuk does not end in time. -/
def manage (hosts : List (List Char)) (output : Option (List Char)) : Bool × List (List Char) :=
  match output with
  | none => (false, [])
  | some out => (true, (split '\n' out).foldl answered hosts)

/-- What is written to taktuk: the names of the hosts (oar/lib/tools.py:581-587). -/
def hostFile (hosts : List (List Char)) : List Char := hosts.flatMap (fun h => h ++ ['\n'])

/-- `launch_oarexec` (oar/lib/tools.py:486-531), for a text of meeting without special characters. `none`: time-out. -/
def launched (meeting : List Char) (output : Option (List Char)) : Bool :=
  match output with
  | none => false
  | some out => (split '\n' out).any (fun l => l == meeting)

/-- A resource: the value is the one of the field of the cpusets. -/
structure Res where
  id : Nat
  host : String
  typ : String
  value : String
  deriving DecidableEq

/-- The rows of the query of `get_cpuset_values` (oar/lib/job_handling.py:1416-1442); `assigned` are the couples of a moldable description and a resource. -/
def rows (res : List Res) (assigned : List (Nat × Nat)) (mold : Nat) (always : Option String) : List (String × String) :=
  ((res.filter (fun r => assigned.contains (mold, r.id) && r.host != "" && (r.typ == "default" || always == some r.typ))).map (fun r => (r.host, r.value))).eraseDups

/-- One row (oar/lib/job_handling.py:1445-1451). -/
def addRow : List (String × List String) → String × String → List (String × List String)
  | [], (h, v) => [(h, [v])]
  | (k, l) :: d, (h, v) => if k = h then (k, l ++ [v]) :: d else (k, l) :: addRow d (h, v)

/-- `get_cpuset_values` (oar/lib/job_handling.py:1416-1453). -/
def cpusets (res : List Res) (assigned : List (Nat × Nat)) (mold : Nat) (always : Option String) : List (String × List String) :=
  (rows res assigned mold always).foldl addRow []

end Oar.Remote
