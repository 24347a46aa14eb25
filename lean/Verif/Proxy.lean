import Verif.Tools

/-!
# Model of the entry of the notifications

`oar/modules/appendice_proxy.py` (the socket on which the nodes and the scheduler notify the server), and what the launcher makes of its
messages: the command line (`oar/modules/bipbip_commander.py`) and the arguments of bipbip (`oar/modules/bipbip.py`). Texts are lists of characters; the
digits and the spaces are the ASCII ones.
-/

namespace Oar.Proxy

open Oar.Tools

/-- The commands of `OAR_EXEC_RUNJOB_LEON` (oar/modules/appendice_proxy.py:28). -/
def names : List (List Char) := [txt "OAREXEC", txt "OARRUNJOB", txt "LEONEXTERMINATE"]

/-- What follows a prefix. -/
def after (n s : List Char) : Option (List Char) := if n.isPrefixOf s then some (s.drop n.length) else none

/-- `(\d+)(.*)` after the name and `_`: the digits, then the text to the end of the line. -/
def fields (t : List Char) : Option (List Char × List Char) :=
  if t.takeWhile Char.isDigit = [] then none else some (t.takeWhile Char.isDigit, (t.dropWhile Char.isDigit).takeWhile (fun c => c ≠ '\n'))

/-- One name at the beginning of the text. -/
def matchName (s n : List Char) : Option (List Char × List Char × List Char) :=
  match after (n ++ ['_']) s with
  | none => none
  | some t => (fields t).map (fun p => (n, p.1, p.2))

/-- The regular expression at the beginning of the text. -/
def matchHere (s : List Char) : Option (List Char × List Char × List Char) := names.findSome? (matchName s)

/-- `re.search` (oar/modules/appendice_proxy.py:71): the first position that matches. -/
def search : List Char → Option (List Char × List Char × List Char)
  | [] => none
  | c :: s =>
    match matchHere (c :: s) with
    | some x => some x
    | none => search s

/-- `msg.rstrip()`. -/
def rstrip (s : List Char) : List Char := (s.reverse.dropWhile Char.isWhitespace).reverse

/-- What is sent: to the launcher or to the central automaton. -/
inductive Out where
  | launcher (job : Nat) (cmd : List Char) (args : List (List Char))
  | server (cmd : List Char)
  deriving DecidableEq

/-- One turn of the loop (oar/modules/appendice_proxy.py:60-86) for the text received; the empty text is a connection or a disconnection. -/
def treat (msg : List Char) : Option Out :=
  if msg = [] then none
  else
    match search (rstrip msg) with
    | some (n, d, r) => some (.launcher (val d) n ((split '_' r).drop 1))
    | none => some (.server (rstrip msg))

/-- The loop over the chunks received (oar/modules/appendice_proxy.py:59-89): `none` is a chunk that is not UTF-8 text, `decode` raises and the proxy
stops. The value says whether it still runs. -/
def run : List (Option (List Char)) → List Out × Bool
  | [] => ([], true)
  | none :: _ => ([], false)
  | some m :: ms => ((treat m).toList ++ (run ms).1, (run ms).2)

/-- The command line given to the shell (`bipbip_leon_executor`, oar/modules/bipbip_commander.py:63-77). -/
def commandLine (leon bipbip : List Char) (job : Nat) (cmd : List Char) (args : List (List Char)) : List Char :=
  [' '].intercalate (if cmd = txt "LEONEXTERMINATE" then [leon, digits job] else [bipbip, digits job] ++ args)

/-- The characters that mean nothing for the shell. -/
def plain (c : Char) : Bool := c.isAlphanum || c == '_' || c == '-' || c == '.' || c == '/' || c == ':'

/-- The words of a command line read by the shell, when it is only made of plain characters and spaces (`launch_command`, oar/modules/bipbip_commander.py:42-51,
`shell=True`); the other lines are not modelled. -/
def words (line : List Char) : Option (List (List Char)) :=
  if line.all (fun c => plain c || c == ' ') then some ((split ' ' line).filter (fun w => w ≠ [])) else none

/-- The arguments read by bipbip (oar/modules/bipbip.py:47-69): job, exit value of oarexec, exit value of the script, challenge. -/
def bipbipArgs (argv : List (List Char)) : Option (Nat × Option (List Char) × Option (List Char) × Option (List Char)) :=
  match argv with
  | [] => none
  | j :: as => (pyNat j).map (fun n => (n, as[0]?, as[1]?, as[2]?))

/-- The message of oarexec at the end of a job (oar/tools/oarexec:84). -/
def oarexecMsg (job : Nat) (exit script challenge : List Char) : List Char :=
  txt "OAREXEC_" ++ digits job ++ '_' :: exit ++ '_' :: script ++ '_' :: challenge

/-- The message of the scheduler (oar/kao/meta_sched.py:202). -/
def runMsg (job : Nat) : List Char := txt "OARRUNJOB_" ++ digits job

/-- The message that asks for the extermination of a job (oar/modules/bipbip_commander.py:10). -/
def leonMsg (job : Nat) : List Char := txt "LEONEXTERMINATE_" ++ digits job

end Oar.Proxy
