import Verif.Tools
import Verif.Resources

/-!
# Model of the test of the nodes

`pingchecker` and `pingchecker_exec_command` of `oar/lib/tools.py`, called by Finaud, by the launcher and at the end of the jobs. Texts are lists
of characters. The output of the command (`none`: it did not end in time) and the addresses of the hosts (`socket.gethostbyname`, for names that
have one) are inputs. `\w`, `\d` and `\s` are restricted to ASCII. The commands of TakTuk and Sentinelle are not modelled as texts.
-/

namespace Oar.Ping

open Oar.Tools Oar.Res

/-- A character of `[\w\.\-]`. -/
def isHost (c : Char) : Bool := c.isAlphanum || c == '_' || c == '.' || c == '-'

/-- A character of `\s`. -/
def isSp (c : Char) : Bool := c == ' ' || c == '\t' || c == '\n' || c == '\r' || c == '\x0b' || c == '\x0c'

/-- The keys of the configuration read by `pingchecker`; `taktuk`: both PINGCHECKER_TAKTUK_ARG_COMMAND and TAKTUK_CMD. -/
structure Conf where
  taktuk : Bool := false
  sentinelle : Bool := false
  nmap : Option (List Char) := none
  generic : Option (List Char) := none
  fping : Option (List Char) := none

/-- The method used. -/
inductive Kind where
  | taktuk
  | sentinelle
  | nmap
  | generic
  | fping
  | absent
  deriving DecidableEq

/-- The choice of the method (oar/lib/tools.py:232-292). -/
def kind (c : Conf) : Kind :=
  if c.taktuk then .taktuk
  else if c.sentinelle then .sentinelle
  else if c.nmap.isSome then .nmap
  else if c.generic.isSome then .generic
  else if c.fping.isSome then .fping
  else .absent

/-- `" ".join(hosts)`. -/
def joinSp : List (List Char) → List Char
  | [] => []
  | [h] => h
  | h :: hs => h ++ ' ' :: joinSp hs

/-- The command run by the last three methods (oar/lib/tools.py:265, 275, 284). -/
def command (c : Conf) (hosts : List (List Char)) : Option (List Char) :=
  match kind c with
  | .nmap => c.nmap.map (fun p => p ++ txt " -oG - " ++ joinSp hosts)
  | .generic => c.generic.map (fun p => p ++ joinSp hosts)
  | .fping => c.fping.map (fun p => p ++ txt " -u " ++ joinSp hosts)
  | _ => none

/-- The text after a prefix. -/
def after : List Char → List Char → Option (List Char)
  | [], l => some l
  | _ :: _, [] => none
  | p :: ps, c :: l => if p = c then after ps l else none

/-- `sub in s`. -/
def contains (sub : List Char) : List Char → Bool
  | [] => (after sub []).isSome
  | c :: l => (after sub (c :: l)).isSome || contains sub l

/-- The filter of TakTuk, `^STATUS ([\w\.\-\d]+) (\d+)$` with a second group equal to `0` (oar/lib/tools.py:245-248). -/
def filterTaktuk (l : List Char) : Option (List Char) :=
  match after (txt "STATUS ") l with
  | none => none
  | some r =>
    let h := r.takeWhile isHost
    if h ≠ [] ∧ r.dropWhile isHost = txt " 0" then some h else none

/-- The filter of Sentinelle, `^([\w\.\-]+)\s:\sBAD\s.*$` (oar/lib/tools.py:260-263). -/
def filterSentinelle (l : List Char) : Option (List Char) :=
  let h := l.takeWhile isHost
  match l.dropWhile isHost with
  | s1 :: ':' :: s2 :: 'B' :: 'A' :: 'D' :: s3 :: _ => if h ≠ [] ∧ isSp s1 ∧ isSp s2 ∧ isSp s3 then some h else none
  | _ => none

/-- The filter of the generic command, `^\s*([\w\.\-]+)\s*$` (oar/lib/tools.py:277-280). -/
def filterGeneric (l : List Char) : Option (List Char) :=
  let r := l.dropWhile isSp
  let h := r.takeWhile isHost
  if h ≠ [] ∧ (r.dropWhile isHost).all isSp then some h else none

/-- The filter of fping, `^\s*([\w\.\d-]+)\s*(.*)$` with `alive` in the second group (oar/lib/tools.py:286-289). -/
def filterFping (l : List Char) : Option (List Char) :=
  let r := l.dropWhile isSp
  let h := r.takeWhile isHost
  if h ≠ [] ∧ contains (txt "alive") ((r.dropWhile isHost).dropWhile isSp) then some h else none

/-- `\d+`, greedy: the digits and the rest. -/
def number (l : List Char) : Option (List Char × List Char) :=
  let d := l.takeWhile Char.isDigit
  if d = [] then none else some (d, l.dropWhile Char.isDigit)

/-- `\d+(\.\d+){k}`. -/
def numbers : Nat → List Char → Option (List Char × List Char)
  | 0, l => number l
  | k + 1, l =>
    match number l with
    | some (d, '.' :: r) => (numbers k r).map (fun x => (d ++ '.' :: x.1, x.2))
    | _ => none

/-- The address found by the filter of nmap, `^Host:\s(\d+\.\d+\.\d+\.\d+).*/open/.*$` (oar/lib/tools.py:269-271). -/
def addressNmap (l : List Char) : Option (List Char) :=
  match after (txt "Host:") l with
  | some (s :: r) =>
    if isSp s then
      match numbers 3 r with
      | some (ip, rest) => if contains (txt "/open/") rest then some ip else none
      | none => none
    else none
  | _ => none

/-- What happens: a normal return, or an exception. -/
inductive Err where
  | unbound
  | key
  deriving DecidableEq

/-- `ip2hostname` (oar/lib/tools.py:266): the last host that has the address. -/
def ip2host (addr : List Char → List Char) (hosts : List (List Char)) (ip : List Char) : Option (List Char) :=
  hosts.reverse.find? (fun h => decide (addr h = ip))

/-- The filter of a method (oar/lib/tools.py:232-292). -/
def filterOutput (k : Kind) (addr : List Char → List Char) (hosts : List (List Char)) (l : List Char) : Except Err (Option (List Char)) :=
  match k with
  | .taktuk => .ok (filterTaktuk l)
  | .sentinelle => .ok (filterSentinelle l)
  | .generic => .ok (filterGeneric l)
  | .fping => .ok (filterFping l)
  | .nmap =>
    match addressNmap l with
    | none => .ok none
    | some ip =>
      match ip2host addr hosts ip with
      | some h => .ok (some h)
      | none => .error .key
  | .absent => .error .unbound

/-- `add_bad_hosts`. -/
def addBad (k : Kind) : Bool :=
  match k with
  | .sentinelle => true
  | .generic => true
  | .fping => true
  | _ => false

/-- The loop over the lines (oar/lib/tools.py:324-330): `bad_hosts` is bound only when `add_bad_hosts` is false; otherwise the test of the first
line that gives a (non-empty) host raises, so the list is never filled. -/
def loop (add : Bool) (f : List Char → Except Err (Option (List Char))) : List (List Char) → List (List Char) → Except Err (List (List Char))
  | bad, [] => .ok (if add then [] else bad)
  | bad, l :: ls =>
    match f l with
    | .error e => .error e
    | .ok none => loop add f bad ls
    | .ok (some h) =>
      if h = [] then loop add f bad ls
      else if add then .error .unbound
      else loop add f (bad.filter (fun x => decide (x ≠ h))) ls

/-- The keys of `{h: True for h in hosts}`. -/
def keys : List (List Char) → List (List Char)
  | [] => []
  | h :: hs => h :: (keys hs).filter (fun x => decide (x ≠ h))

/-- Models `pingchecker` and `pingchecker_exec_command` (oar/lib/tools.py:225-338): whether the command ended in time, and the bad hosts. -/
def check (c : Conf) (addr : List Char → List Char) (hosts : List (List Char)) (out : Option (List Char)) : Except Err (Bool × List (List Char)) :=
  if kind c = .absent then .error .unbound
  else
    match out with
    | none => .ok (false, [])
    | some o =>
      match loop (addBad (kind c)) (filterOutput (kind c) addr hosts) (keys hosts) (split '\n' o) with
      | .ok bad => .ok (true, bad)
      | .error e => .error e

/-- The nodes tested by Finaud (oar/modules/finaud.py:47-53). -/
def tested (w : RDB) (all : Bool) : List (List Char) :=
  ((firstOfHost [] (w.res.filter finaudable)).filter (fun n => all || !occupied w n.host)).map (fun n => n.host.toList)

/-- Finaud with the result of the test (oar/modules/finaud.py:55-61): when the command does not end in time, all the nodes are bad. -/
def finaud (c : Conf) (addr : List Char → List Char) (w : RDB) (all : Bool) (out : Option (List Char)) : Except Err RDB :=
  match check c addr (tested w all) out with
  | .error e => .error e
  | .ok (ended, bad) => .ok (finaudRun w all (fun h => if ended then decide (h.toList ∈ bad) else decide (h.toList ∈ tested w all)))

end Oar.Ping
