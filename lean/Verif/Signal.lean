import Verif.Cli
import Verif.Tools

/-!
# Model of the text of the command that sends a signal to a job

`signal_oarexec` (oar/lib/tools.py:391-458) and the part of `oardel` that calls it (oar/cli/oardel.py:76-128).
Not modelled: the options of ssh, the time-outs.
-/

namespace Oar.Signal

open Oar.Jobs Oar.Cli Oar.Tools

/-- The options used: the directory of the files, the prefix of the name of the file with the process, the hosts of the special types. -/
structure Conf where
  dir : List Char
  pidName : List Char
  cosystem : String
  deploy : String

/-- `get_oar_pid_file_name` (oar/lib/tools.py:376-383). -/
def pidFile (cf : Conf) (job : Nat) : List Char := cf.dir ++ txt "/" ++ cf.pidName ++ str job

/-- `get_oar_user_signal_file_name` (oar/lib/tools.py:386-388). -/
def signalFile (cf : Conf) (job : Nat) : List Char := cf.dir ++ txt "/USER_SIGNAL_" ++ str job

/-- The end of the script, common to the two cases (oar/lib/tools.py:411-417, 421-427). -/
def killText (file sig : List Char) : List Char :=
  txt "test -e " ++ file ++ txt " && PROC=$(cat " ++ file ++ txt ") && kill -s CONT $PROC && kill -s " ++ sig ++ txt " $PROC"

/-- The last argument of ssh (oar/lib/tools.py:403-428). `none` and the empty text: there is no signal of the user. -/
def command (cf : Conf) (job : Nat) (sig : List Char) (userSignal : Option (List Char)) : List Char :=
  match userSignal with
  | none => txt "bash -c '" ++ killText (pidFile cf job) sig ++ txt "'"
  | some [] => txt "bash -c '" ++ killText (pidFile cf job) sig ++ txt "'"
  | some u => txt "bash -c '" ++ (txt "echo " ++ u ++ txt " > " ++ signalFile cf job ++ txt " && " ++ killText (pidFile cf job) sig) ++ txt "'"

/-- The host where the signal is sent (oar/cli/oardel.py:110-116). `none`: an exception. -/
def host (cf : Conf) (db : DB) (n : Nodes) (job : Nat) : Option String :=
  if "cosystem" ∈ typesOf db job then some cf.cosystem
  else if "deploy" ∈ typesOf db job then some cf.deploy
  else (n.hosts job).head?

/-- What `oardel -s` gives to ssh for a job: the host and the text (oar/cli/oardel.py:96-127). `none`: the request is refused, or an exception. -/
def sent (cf : Conf) (db : DB) (n : Nodes) (user : String) (userSignal : List Char) (job : Nat) : Option (String × List Char) :=
  if (askCheckpoint db job (some "SIGURG") user).1 > 0 then none
  else match host cf db n job with
    | none => none
    | some h => some (h, command cf job (txt "SIGURG") (some userSignal))

/-- `oardel -s SIGNAL ID ...` (oar/cli/oardel.py:75, 230-266): an empty text is the absence of the option. -/
def oardelS (db : DB) (now : Int) (n : Nodes) (up : Bool) (user : String) (userSignal : List Char) (ids : List Nat) : Out :=
  if userSignal = [] then oardel db now user up { ids := ids } else oardelSignal db n false user { ids := ids }

end Oar.Signal
