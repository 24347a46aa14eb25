import Verif.Connect
import Verif.ShellQuotes

/-!
# C111: specification of the connection to a job
-/

namespace Oar.Connect
open Oar.Tools Oar.Shell

/-- A character without meaning for a shell. -/
def Safe (c : Char) : Prop := c.isAlphanum = true ∨ c ∈ ['/', '.', '_', '-', '+', ':', ',', '@', '%']

instance (c : Char) : Decidable (Safe c) := inferInstanceAs (Decidable (_ ∨ _))

/-- A text of such characters, maybe empty. -/
def SafeText (l : List Char) : Prop := ∀ c ∈ l, Safe c

instance (l : List Char) : Decidable (SafeText l) := inferInstanceAs (Decidable (∀ c ∈ l, _))

/-- A non-empty one. -/
def SafeWord (l : List Char) : Prop := l ≠ [] ∧ SafeText l

instance (l : List Char) : Decidable (SafeWord l) := inferInstanceAs (Decidable (_ ∧ _))

/-- Words separated by spaces. -/
def spaced : List (List Char) → List Char
  | [] => []
  | [x] => x
  | x :: y :: r => x ++ ' ' :: spaced (y :: r)

/-- The variables given to the shell of the user, in order. -/
def exports (cf : Conf) (j : Job) (shell : List Char) : List (List Char × List Char) :=
  [(txt "OAR_FILE_NODES", cf.dir ++ txt "/" ++ str j.id), (txt "OAR_JOBID", str j.id), (txt "OAR_ARRAYID", str j.arrayId), (txt "OAR_ARRAYINDEX", str j.arrayIndex), (txt "OAR_USER", j.user),
   (txt "OAR_WORKDIR", j.directory), (txt "OAR_RESOURCE_PROPERTIES_FILE", cf.dir ++ txt "/" ++ str j.id ++ txt "_resources"), (txt "OAR_NODEFILE", txt "$OAR_FILE_NODES"), (txt "OAR_O_WORKDIR", txt "$OAR_WORKDIR"),
   (txt "OAR_NODE_FILE", txt "$OAR_FILE_NODES"), (txt "OAR_RESOURCE_FILE", txt "$OAR_FILE_NODES"), (txt "OAR_WORKING_DIRECTORY", txt "$OAR_WORKDIR"), (txt "OAR_JOB_ID", txt "$OAR_JOBID"),
   (txt "OAR_ARRAY_ID", txt "$OAR_ARRAYID"), (txt "OAR_ARRAY_INDEX", txt "$OAR_ARRAYINDEX"), (txt "OAR_JOB_NAME", j.name.getD []), (txt "OAR_PROJECT_NAME", j.project),
   (txt "OAR_JOB_WALLTIME", durationToSql j.walltime), (txt "OAR_JOB_WALLTIME_SECONDS", str j.walltime)] ++
  (match cf.proxyUrl with | some u => [(txt "OAR_PROXY_BASE_URL", u)] | none => []) ++ [(txt "SHELL", shell)]

/-- The text that sets a variable. -/
def exportText (e : List Char × List Char) : List Char := txt "export " ++ e.1 ++ txt "=" ++ e.2 ++ txt ";"

/-- The command that sets a variable. -/
def exportCmd (e : List Char × List Char) : Cmd := [.word (txt "export"), .word (e.1 ++ txt "=" ++ e.2)]

/-- The script of the user: the terminal, the variables, the directory (status 2 when it cannot be entered), the shell. -/
def inner (es : List (List Char × List Char)) : List Char :=
  txt "if [ a$TERM == a ] || [ x$TERM == xunknown ]; then export TERM=xterm; fi;" ++ es.flatMap exportText ++
  txt " export SUDO_COMMAND=OAR; SHLVL=1; if ( cd $OAR_WORKING_DIRECTORY &> /dev/null ); then     cd $OAR_WORKING_DIRECTORY; else     exit 2; fi; (exec -a -${SHELL##*/} $SHELL); exit 0"

/-- What is done on the node as `oar`: the process is written in a file and the terminal is given to the user. -/
def outer (pids user : List Char) : List Char :=
  txt "echo $PPID >> " ++ pids ++ txt " && TTY=$(tty) && test -e $TTY && oardodo chown " ++ user ++ txt ":oar $TTY && oardodo chmod 660 $TTY"

/-- The two commands of the node: the first as `oar`, the second as the user if the first succeeds. -/
def nodeCommands (pids user : List Char) (es : List (List Char × List Char)) : List (Sep × Cmd) :=
  [(.newline, [.word (txt "bash"), .word (txt "-c"), .word (outer pids user)]),
   (.andIf, [.word (txt "OARDO_BECOME_USER=" ++ user), .word (txt "oardodo"), .word (txt "bash"), .word (txt "--noprofile"), .word (txt "--norc"), .word (txt "-c"), .word (inner es)])]

/-- The text of the node. -/
def nodeText (pids user : List Char) (es : List (List Char × List Char)) : List Char :=
  txt "bash -c '" ++ outer pids user ++ txt "' && OARDO_BECOME_USER=" ++ user ++ txt " oardodo bash --noprofile --norc -c '" ++ inner es ++ txt "'"

/-- The words of ssh before the text of the node. -/
def sshWords (cf : Conf) (j : Job) (ssh : List (List Char)) (h : List Char) : List (List Char) :=
  ssh ++ (if cpuset cf j ≠ [] then [txt "-oSendEnv=OAR_CPUSET"] else []) ++ [txt "-x", txt "-t", h]

/-- All the fields but the directory and the project are safe. -/
structure Usual (cf : Conf) (j : Job) (ssh : List (List Char)) (h shell : List Char) : Prop where
  ssh_text : cf.openssh = spaced ssh
  ssh_some : ssh ≠ []
  ssh_safe : ∀ x ∈ ssh, SafeWord x
  host : SafeWord h
  dir : SafeText cf.dir
  pids : SafeText cf.pidsPrefix
  user : SafeText j.user
  env : j.env = none
  name : SafeText (j.name.getD [])
  proxy : ∀ u, cf.proxyUrl = some u → SafeText u
  shell : SafeText shell

end Oar.Connect
