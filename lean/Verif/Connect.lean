import Verif.Tools

/-!
# Model of the connection to a job (`oarsub -C`, `oarsub -I`, `oarconnect`)

Not modelled: the forwarding of X11 (`DISPLAY` is empty); a running job has a current moldable description.
-/

namespace Oar.Connect
open Oar.Tools

/-- The options used. The empty text of `field` and `cpusetPath` is the absence of the option; `proxyUrl`: `OAR_PROXY_BASE_URL`, when `PROXY` is `traefik`. -/
structure Conf where
  dir : List Char
  pidsPrefix : List Char
  cosystem : List Char
  deploy : List Char
  field : List Char
  cpusetPath : List Char
  openssh : List Char
  proxyUrl : Option (List Char) := none

/-- The job, with its types, the hosts of `get_job_current_hostnames` (oar/lib/job_handling.py:1590-1606) and the walltime of its current moldable description. -/
structure Job where
  id : Nat
  user : List Char
  state : String
  types : List String := []
  hosts : List (List Char)
  env : Option (List Char) := none
  arrayId : Nat
  arrayIndex : Nat
  directory : List Char
  name : Option (List Char) := none
  project : List Char
  walltime : Nat

/-- Models `get_oarexecuser_script_for_oarsub` (oar/lib/tools.py:906-978). -/
def script (cf : Conf) (j : Job) (nodeFile shell resourceFile : List Char) : List Char :=
  txt "if [ \"a\\$TERM\" == \"a\" ] || [ \"x\\$TERM\" == \"xunknown\" ]; then export TERM=xterm; fi;" ++ j.env.getD []
  ++ txt "export OAR_FILE_NODES=\"" ++ nodeFile ++ txt "\";"
  ++ txt "export OAR_JOBID=" ++ str j.id ++ txt ";"
  ++ txt "export OAR_ARRAYID=" ++ str j.arrayId ++ txt ";"
  ++ txt "export OAR_ARRAYINDEX=" ++ str j.arrayIndex ++ txt ";"
  ++ txt "export OAR_USER=\"" ++ j.user ++ txt "\";"
  ++ txt "export OAR_WORKDIR=\"" ++ j.directory ++ txt "\";"
  ++ txt "export OAR_RESOURCE_PROPERTIES_FILE=\"" ++ resourceFile ++ txt "\";"
  ++ txt "export OAR_NODEFILE=\\$OAR_FILE_NODES;" ++ txt "export OAR_O_WORKDIR=\\$OAR_WORKDIR;" ++ txt "export OAR_NODE_FILE=\\$OAR_FILE_NODES;" ++ txt "export OAR_RESOURCE_FILE=\\$OAR_FILE_NODES;"
  ++ txt "export OAR_WORKING_DIRECTORY=\\$OAR_WORKDIR;" ++ txt "export OAR_JOB_ID=\\$OAR_JOBID;" ++ txt "export OAR_ARRAY_ID=\\$OAR_ARRAYID;" ++ txt "export OAR_ARRAY_INDEX=\\$OAR_ARRAYINDEX;"
  ++ txt "export OAR_JOB_NAME=\"" ++ j.name.getD [] ++ txt "\";"
  ++ txt "export OAR_PROJECT_NAME=\"" ++ j.project ++ txt "\";"
  ++ txt "export OAR_JOB_WALLTIME=\"" ++ durationToSql j.walltime ++ txt "\";"
  ++ txt "export OAR_JOB_WALLTIME_SECONDS=" ++ str j.walltime ++ txt ";"
  ++ (match cf.proxyUrl with | some u => txt "export OAR_PROXY_BASE_URL=" ++ u ++ txt ";" | none => [])
  ++ txt "export SHELL=\"" ++ shell ++ txt "\";" ++ txt " export SUDO_COMMAND=OAR;" ++ txt " SHLVL=1;"
  ++ txt " if ( cd \"\\$OAR_WORKING_DIRECTORY\" &> /dev/null ); then     cd \"\\$OAR_WORKING_DIRECTORY\"; else     exit 2; fi;"
  ++ txt " (exec -a -\\${SHELL##*/} \\$SHELL); exit 0"

/-- The files given to the job and the one of the processes (oar/cli/oarsub.py:146-153). -/
def nodeFile (cf : Conf) (j : Job) : List Char := cf.dir ++ txt "/" ++ str j.id
/-- See `nodeFile`. -/
def resourceFile (cf : Conf) (j : Job) : List Char := nodeFile cf j ++ txt "_resources"
/-- See `nodeFile`. -/
def pidsFile (cf : Conf) (j : Job) : List Char := cf.dir ++ txt "/" ++ cf.pidsPrefix ++ str j.id

/-- The host (oar/cli/oarsub.py:72-79). `none`: `hosts[0]` raises. -/
def host (cf : Conf) (j : Job) : Option (List Char) :=
  match j.hosts with
  | [] => none
  | h :: _ => some (if "cosystem" ∈ j.types then cf.cosystem else if "deploy" ∈ j.types then cf.deploy else h)

/-- The environment variable `OAR_CPUSET` (oar/cli/oarsub.py:80-95, oar/lib/job_handling.py:2018-2027); there is at least one host. -/
def cpuset (cf : Conf) (j : Job) : List Char :=
  if cf.field ≠ [] ∧ cf.cpusetPath ≠ [] ∧ "cosystem" ∉ j.types ∧ "deploy" ∉ j.types then cf.cpusetPath ++ txt "/" ++ (j.user ++ txt "_" ++ str j.id) else []

/-- The text given to the local shell (oar/cli/oarsub.py:155-207). -/
def command (cf : Conf) (j : Job) (h shell : List Char) : List Char :=
  cf.openssh ++ (if cpuset cf j ≠ [] then txt " -oSendEnv=OAR_CPUSET " else []) ++ txt " -x " ++ txt "-t " ++ h ++ txt " "
  ++ txt "\"bash -c 'echo \\$PPID >> " ++ pidsFile cf j ++ txt " && TTY=\\$(tty) && test -e \\$TTY && oardodo chown " ++ j.user
  ++ txt ":oar \\$TTY && oardodo chmod 660 \\$TTY' && OARDO_BECOME_USER=" ++ j.user ++ txt " oardodo bash --noprofile --norc -c '"
  ++ script cf j (nodeFile cf j) shell (resourceFile cf j) ++ txt "'\""

/-- What a connection does: the text given to the local shell, the environment variable `OAR_CPUSET`, whether the job is ended (signal USR1), the exit code (`none`: an exception). -/
structure Result where
  text : Option (List Char) := none
  cpuset : List Char := []
  ended : Bool := false
  exit : Option Int := none
  deriving DecidableEq

/-- Models `connect_job` (oar/cli/oarsub.py:55-251). `user`: `OARDO_USER`; `shellOf`: the shell of a user in the password file; `status`: the `returncode` of a command;
`stop`: 1 for the client of an interactive submission; `job`: the result of `get_job`. -/
def connect (cf : Conf) (user : Option (List Char)) (shellOf : List Char → List Char) (status : List Char → Int) (stop : Nat) (job : Option Job) : Result :=
  match job with
  | none => {}
  | some j =>
    if (user = some j.user ∨ user = some (txt "oar")) ∧ j.state = "Running" then
      if "noop" ∈ j.types then { exit := some 17 }
      else match host cf j with
        | none => {}
        | some h =>
          let text := command cf j h (shellOf (user.getD []))
          let value := status text / 256
          if value ≠ 0 then { text := some text, cpuset := cpuset cf j, exit := some value }
          else { text := some text, cpuset := cpuset cf j, ended := decide (stop > 0), exit := some 0 }
    else { exit := some 20 }

end Oar.Connect
