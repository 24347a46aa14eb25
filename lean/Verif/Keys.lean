import Verif.Script

/-!
# Model of the job keys and of the files of a submission

`job_key_management` and `add_micheline_jobs` (`oar/lib/submission.py`), the files read by `JobParameters` and `oarsub`, and the user as whom `oardodo`
(`oar/tools/oardodo.c.in`) reads and writes them. Texts are lists of characters; the empty text is also None. The temporary file of the key is not shared.
-/

namespace Oar.Keys

open Oar.Tools Oar.Script

/-- What is outside of the command: the files each user can read, the public key that `ssh-keygen -y` extracts, the pair generated for each call. -/
structure World where
  read : String → List Char → Option (List Char)
  pubOf : List Char → Option (List Char)
  gen : Nat → Option (List Char × List Char)

/-- The environment of the command. The wrapper (oar/tools/oardo:20-48) sets `OARDO_USER` and keeps `OARDO_BECOME_USER`. -/
structure Env where
  user : String
  become : Option String
  keyFile : List Char := []

/-- The user as whom `oardodo` runs (oar/tools/oardodo.c.in:110-118). -/
def runAs (e : Env) : String :=
  match e.become with
  | some u => if u = "" then "root" else u
  | none => "root"

/-- An access to a file: `truncate` is a `dd` to which nothing is written. -/
inductive Access where
  | read (user : String) (file : List Char)
  | truncate (user : String) (file : List Char)
  deriving DecidableEq

/-- The user of an access. -/
def Access.user : Access → String
  | .read u _ => u
  | .truncate u _ => u

/-- The options about keys. -/
structure KeyOpts where
  use : Bool := false
  inl : List Char := []
  file : List Char := []
  exp : List Char := []

/-- How `job_key_management` ends. -/
inductive KeyRes where
  | error (code : Int)
  | ok (priv pub : List Char)
  deriving DecidableEq

/-- `re.match(r"^(ssh-rsa|ssh-dss)\s.+\n*$", key)` (oar/lib/submission.py:518), after the prefix. -/
def formatRest : List Char → Bool
  | [] => false
  | s :: t => isSpace s && !(t.takeWhile (fun c => c != '\n')).isEmpty && (t.dropWhile (fun c => c != '\n')).all (fun c => c == '\n')

/-- The format of a public key. -/
def format (k : List Char) : Bool :=
  match after (txt "ssh-rsa") k with
  | some r => formatRest r
  | none =>
    match after (txt "ssh-dss") k with
    | some r => formatRest r
    | none => false

/-- The last checks (oar/lib/submission.py:509-527). -/
def lastChecks (priv pub : List Char) : KeyRes :=
  if pub = [] then .error (-15)
  else if priv = [] then .error (-15)
  else if !format pub then .error (-14)
  else .ok priv (pub.filter (fun c => c != '\n'))

/-- Models `job_key_management` (oar/lib/submission.py:348-528), without its argument `user`, for the `i`-th call: the result, the accesses and the environment. -/
def jobKey (w : World) (e : Env) (i : Nat) (o : KeyOpts) : KeyRes × List Access × Env :=
  let file := if o.use && o.inl.isEmpty && o.file.isEmpty then e.keyFile else o.file
  if !o.use then
    (if o.inl ≠ [] ∨ file ≠ [] ∨ o.exp ≠ [] then .error (-15) else .ok [] [], [], e)
  else if o.inl ≠ [] ∧ file ≠ [] then (.error (-15), [], e)
  else if o.inl ≠ [] then
    (match w.pubOf o.inl with
     | none => .error (-14)
     | some p => lastChecks o.inl p, [], e)
  else if file ≠ [] then
    (match w.pubOf (cat (w.read (runAs { e with become := some e.user }) file)) with
     | none => .error (-14)
     | some p => lastChecks (cat (w.read (runAs { e with become := some e.user }) file)) p,
     [.read (runAs { e with become := some e.user }) file], { e with become := some e.user })
  else
    (match w.gen i with
     | none => .error (-14)
     | some p => lastChecks p.1 p.2, [], e)

/-- `str.replace("%jobid%", …)`. -/
def substId (id : List Char) : Nat → List Char → List Char
  | 0, l => l
  | _ + 1, [] => []
  | n + 1, c :: l =>
    match after (txt "%jobid%") (c :: l) with
    | some r => id ++ substId id n r
    | none => c :: substId id n l

/-- A job created. -/
structure Job where
  id : Nat
  command : List Char
  priv : List Char
  pub : List Char
  deriving DecidableEq

/-- How a submission ends: the jobs created, the accesses, and the code; `none`: an exception. -/
structure Out where
  jobs : List Job
  accesses : List Access
  code : Option Int

/-- The loop over the commands (oar/lib/submission.py:1453-1520): the insertion of a job succeeds. `next` is the next identifier, `i` the number of the call. The
key exported is in a variable that does not exist, and the error is dropped. -/
def loop (w : World) (o : KeyOpts) (next : Nat) : Nat → Env → List (List Char) → Out
  | _, _, [] => ⟨[], [], some 0⟩
  | i, e, c :: cs =>
    match jobKey w e i o with
    | (.error code, acc, _) => ⟨[], acc, some code⟩
    | (.ok priv pub, acc, e') =>
      if o.use && !o.exp.isEmpty then
        match e'.become with
        | none => ⟨[⟨next + i, c, priv, pub⟩], acc, none⟩
        | some _ =>
          let r := loop w o next (i + 1) e' cs
          ⟨⟨next + i, c, priv, pub⟩ :: r.jobs, acc ++ .truncate (runAs e') (substId (digits (next + i)) o.exp.length o.exp) :: r.accesses, r.code⟩
      else
        let r := loop w o next (i + 1) e' cs
        ⟨⟨next + i, c, priv, pub⟩ :: r.jobs, acc ++ r.accesses, r.code⟩

/-- The jobs of a simple array (oar/lib/submission.py:1438-1449). -/
def simple (next : Nat) : List (List Char) → List Job
  | [] => []
  | c :: cs => ⟨next, c, [], []⟩ :: simple (next + 1) cs

/-- The keys and the jobs (oar/lib/submission.py:1434-1522). -/
def addJobs (w : World) (e : Env) (o : KeyOpts) (next : Nat) (commands : List (List Char)) : Out :=
  if commands.length > 1 ∧ o.use = false then ⟨simple next commands, [], some 0⟩ else loop w o next 0 e commands

/-- A submission: the command, the script to scan (oar/lib/submission.py:531-551) and the file of parameters, given by the command line or by the script, and the options
about keys. -/
structure Req where
  command : List Char
  script : List Char := []
  paramFile : List Char := []
  keys : KeyOpts := {}

/-- The environment after the scan: `os.environ["OARDO_BECOME_USER"] = user` (oar/lib/submission.py:538-540). -/
def scanEnv (e : Env) (r : Req) : Env := if r.script = [] then e else { e with become := some e.user }

/-- The accesses before the submission: the script (oar/lib/submission.py:545), the file of parameters (oar/lib/submission.py:234-236). The second reading of
the file by the command (oar/cli/oarsub.py:627-631) is left out. -/
def firstAccesses (e : Env) (r : Req) : List Access :=
  (if r.script = [] then [] else [.read (runAs (scanEnv e r)) r.script]) ++
  (if r.paramFile = [] then [] else [.read (runAs (scanEnv e r)) r.paramFile])

/-- The commands of the jobs (oar/lib/submission.py:1425-1432). -/
def commandsOf (w : World) (e : Env) (r : Req) : List (List Char) :=
  if r.paramFile = [] then [r.command]
  else (paramLines (cat (w.read (runAs (scanEnv e r)) r.paramFile))).map (fun x => r.command ++ ' ' :: x)

/-- The whole submission. -/
def submit (w : World) (e : Env) (next : Nat) (r : Req) : Out :=
  ⟨(addJobs w (scanEnv e r) r.keys next (commandsOf w e r)).jobs, firstAccesses e r ++ (addJobs w (scanEnv e r) r.keys next (commandsOf w e r)).accesses,
    (addJobs w (scanEnv e r) r.keys next (commandsOf w e r)).code⟩

/-- The use of a key (oar/cli/oarsub.py:523-537): the option, the parameter of the configuration, the variables of the environment. -/
def useKey (option : Bool) (conf : Option String) (envForce : Option String) (_envKeyFile : Option String) : Bool :=
  option || (match conf with
    | some v => decide (v ∈ ["yes", "YES", "Yes", "1"])
    | none => false) || envForce.isSome

end Oar.Keys
