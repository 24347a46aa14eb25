import Verif.Config

/-!
# Model of the directives of a script and of the parameters of a submission

`scan_script` and the constructor of `JobParameters` (`oar/lib/submission.py`), as called by `oarsub` (`oar/cli/oarsub.py`). Texts are lists of characters; the digits
are the ASCII ones, the blanks are those of Python; the files are decoded without error.
-/

namespace Oar.Script

open Oar.Tools Oar.Config

/-- The blanks of `\s` and `str.strip`. -/
def isSpace (c : Char) : Bool :=
  (decide (9 ≤ c.toNat) && decide (c.toNat ≤ 13)) || (decide (28 ≤ c.toNat) && decide (c.toNat ≤ 32)) || c.toNat == 0x85 || c.toNat == 0xa0 ||
  c.toNat == 0x1680 || (decide (0x2000 ≤ c.toNat) && decide (c.toNat ≤ 0x200a)) || c.toNat == 0x2028 || c.toNat == 0x2029 || c.toNat == 0x202f ||
  c.toNat == 0x205f || c.toNat == 0x3000

/-- What follows the name of an option in its regular expression: `(.+)`, kept or appended; `(\d+)`, kept or appended; nothing. -/
inductive Kind where
  | text
  | texts
  | num
  | nums
  | flag
  deriving DecidableEq

/-- A regular expression of `scan_script`: the key of the result, the alternatives, and what follows. -/
structure Opt where
  key : String
  names : List String
  kind : Kind

/-- The regular expressions of `scan_script`, in their order (oar/lib/submission.py:556-679). -/
def table : List Opt :=
  [⟨"resource", ["-l", "--resource"], .texts⟩,
   ⟨"queue", ["-q", "--queue"], .text⟩,
   ⟨"properties", ["-p", "--property"], .texts⟩,
   ⟨"checkpoint", ["--checkpoint"], .num⟩,
   ⟨"notify", ["--notify"], .text⟩,
   ⟨"types", ["-t", "--type"], .texts⟩,
   ⟨"directory", ["-d", "--directory"], .text⟩,
   ⟨"name", ["-n", "--name"], .text⟩,
   ⟨"project", ["--project"], .text⟩,
   ⟨"hold", ["--hold"], .flag⟩,
   ⟨"dependencies", ["-a", "--after"], .nums⟩,
   ⟨"signal", ["--signal"], .num⟩,
   ⟨"stdout", ["-O", "--stdout"], .text⟩,
   ⟨"stderr", ["-E", "--stderr"], .text⟩,
   ⟨"use_job_key", ["-k", "--use-job-key"], .flag⟩,
   ⟨"import_job_key_inline", ["--import-job-key-inline-priv"], .text⟩,
   ⟨"import_job_key_file", ["-i", "--import-job-key-from-file"], .text⟩,
   ⟨"export_job_key_file", ["-e", "--export-job-key-to-file"], .text⟩,
   ⟨"stagein", ["-s", "--stagein"], .text⟩,
   ⟨"stagein_md5sum", ["--stagein-md5sum"], .text⟩,
   ⟨"array", ["--array"], .num⟩,
   ⟨"array_param_file", ["--array-param-file"], .text⟩]

/-- A Python value of a parameter. -/
inductive Val where
  | null
  | text (s : List Char)
  | texts (l : List (List Char))
  | num (n : Int)
  | nums (l : List Int)
  | flag (b : Bool)
  deriving DecidableEq

/-- `not v`. -/
def Val.falsy : Val → Bool
  | .null => true
  | .text s => s.isEmpty
  | .texts l => l.isEmpty
  | .num n => n == 0
  | .nums l => l.isEmpty
  | .flag b => !b

/-- The end of a regular expression on the text that follows the name of the option: the group of the value. -/
def argument (k : Kind) (r : List Char) : Option (List Char) :=
  match k with
  | .flag => if r.all isSpace then some [] else none
  | .text | .texts => if r.dropWhile isSpace ≠ [] then some (r.dropWhile isSpace) else none
  | .num | .nums => if (pyNat (r.dropWhile isSpace)).isSome then some (r.dropWhile isSpace) else none

/-- The rest of a text after a prefix. -/
def after (p t : List Char) : Option (List Char) := if p.isPrefixOf t then some (t.drop p.length) else none

/-- One alternative of one regular expression on the text that follows `#OAR` and its blanks. -/
def tryName (o : Opt) (t : List Char) (n : String) : Option (Opt × String × List Char) :=
  ((after n.toList t).bind (argument o.kind)).map (fun v => (o, n, v))

/-- The first regular expression that matches. -/
def recognise (t : List Char) : Option (Opt × String × List Char) := table.findSome? (fun o => o.names.findSome? (tryName o t))

/-- `re.match(r"^#OAR\s+", line)` (oar/lib/submission.py:554): the text after `#OAR` and its blanks, of the line without the blanks of its ends. -/
def directive (line : List Char) : Option (List Char) :=
  match after (txt "#OAR") line with
  | none => none
  | some r =>
    match r with
    | [] => none
    | c :: _ => if isSpace c then some (((stripBy isSpace line).drop 4).dropWhile isSpace) else none

/-- The value kept for a key: `result[key] = …` or `result[key].append(…)`. -/
def keep (k : Kind) (old : Option Val) (v : List Char) : Val :=
  match k with
  | .text => .text v
  | .texts =>
    match old with
    | some (.texts l) => .texts (l ++ [v])
    | _ => .texts [v]
  | .num => .num (val v)
  | .nums =>
    match old with
    | some (.nums l) => .nums (l ++ [(val v : Int)])
    | _ => .nums [(val v : Int)]
  | .flag => .flag true

/-- `result`, `initial_request_str` and the line of the error. -/
structure Scan where
  dict : String → Option Val
  request : List Char
  bad : Option (List Char)

/-- What a directive adds to the initial request. -/
def shown (k : Kind) (n : String) (v : List Char) : List Char :=
  match k with
  | .flag => ' ' :: n.toList
  | _ => ' ' :: n.toList ++ ' ' :: v

/-- One line (oar/lib/submission.py:554-680). -/
def scanLine (s : Scan) (line : List Char) : Scan :=
  match directive line with
  | none => s
  | some t =>
    match recognise t with
    | none => { s with bad := some (stripBy isSpace line) }
    | some (o, n, v) =>
      { s with dict := fun k => if k = o.key then some (keep o.kind (s.dict o.key) v) else s.dict k, request := s.request ++ shown o.kind n v }

/-- Models `scan_script` (oar/lib/submission.py:531-681) on the output of `cat`. -/
def scan (request : List Char) (output : List Char) : Scan := (split '\n' output).foldl scanLine ⟨fun _ => none, request, none⟩

/-- The keys read by the constructor (oar/lib/submission.py:77-112). -/
def keys : List String :=
  ["job_type", "resource", "command", "info_type", "queue", "properties", "checkpoint", "signal", "notify", "name", "types", "directory",
   "dependencies", "stdout", "stderr", "hold", "project", "initial_request", "user", "interactive", "reservation_date", "connect", "scanscript",
   "array", "array_params", "array_param_file", "use_job_key", "import_job_key_inline", "import_job_key_file", "export_job_key_file"]

/-- `" AND ".join(…)`. -/
def joinAnd : List (List Char) → List Char
  | [] => []
  | [a] => a
  | a :: b :: l => a ++ txt " AND " ++ joinAnd (b :: l)

/-- The attributes after the loop over the keys (oar/lib/submission.py:109-119). `kwargs` are the named arguments; `script` the result of the scan, if asked. -/
def attrib (kwargs : String → Option Val) (script : Option (String → Option Val)) (key : String) : Val :=
  match kwargs key with
  | none => .null
  | some v =>
    match script with
    | none => v
    | some d =>
      if v.falsy then
        match d key with
        | some w => w
        | none => v
      else v

/-- The properties (oar/lib/submission.py:127-130). -/
def properties (kwargs : String → Option Val) (script : Option (String → Option Val)) : Val :=
  match script with
  | none => attrib kwargs script "properties"
  | some d =>
    match d "properties" with
    | some (.texts l) => .text (joinAnd l)
    | _ => attrib kwargs script "properties"

/-- The output of `oardodo cat` on a file: nothing when it cannot be read, the status being ignored (oar/lib/submission.py:234-242 and 544-551). -/
def cat (file : Option (List Char)) : List Char := file.getD []

/-- The lines kept of a file of parameters (oar/lib/submission.py:244-248). -/
def paramLines (output : List Char) : List (List Char) := (split '\n' output).filter (fun l => !(l.head? == some '#' || l.all isSpace))

/-- The parameters of a submission. -/
structure Params where
  attr : String → Val
  request : List Char
  arrayNb : Int
  arrayParams : List (List Char)

/-- How the constructor ends. -/
inductive Built where
  | raised
  | refused (code : Int)
  | ok (p : Params)

/-- A text attrib, empty when it is None. -/
def Val.str : Val → List Char
  | .text s => s
  | _ => []

/-- The attributes that the constructor changes: `types` and `properties`. -/
def attributes (kwargs : String → Option Val) (script : Option (String → Option Val)) (key : String) : Val :=
  if key = "properties" then properties kwargs script
  else if key = "types" then (if (attrib kwargs script "types").falsy then .texts [] else attrib kwargs script "types")
  else attrib kwargs script key

/-- The size and the parameters of the array (oar/lib/submission.py:132-138). -/
def arrayOf (files : List Char → Option (List Char)) (a : String → Val) : Int × List (List Char) :=
  match a "array" with
  | .num n => if n ≠ 0 then (n, []) else if (a "array_param_file").falsy then (1, []) else
      (((paramLines (cat (files (a "array_param_file").str))).length : Int), paramLines (cat (files (a "array_param_file").str)))
  | _ => if (a "array_param_file").falsy then (1, []) else
      (((paramLines (cat (files (a "array_param_file").str))).length : Int), paramLines (cat (files (a "array_param_file").str)))

/-- The name of the script: `command.split()[0]` (oar/lib/submission.py:542); `none`: it raises. -/
def scriptName (command : Val) : Option (List Char) :=
  match (command.str).dropWhile isSpace with
  | [] => none
  | c :: r => some ((c :: r).takeWhile (fun x => !isSpace x))

/-- Models the constructor of `JobParameters` (oar/lib/submission.py:54-147), but the defaults of the configuration. -/
def build (files : List Char → Option (List Char)) (kwargs : String → Option Val) : Built :=
  if ((kwargs "scanscript").getD .null).falsy then
    .ok ⟨attributes kwargs none,
      if (attrib kwargs none "initial_request").falsy then (attrib kwargs none "command").str else (attrib kwargs none "initial_request").str,
      (arrayOf files (attributes kwargs none)).1, (arrayOf files (attributes kwargs none)).2⟩
  else
    match scriptName ((kwargs "command").getD .null) with
    | none => .raised
    | some f =>
      match (scan ((kwargs "initial_request").getD .null).str (cat (files f))).bad with
      | some _ => .refused (-72)
      | none =>
        let d := (scan ((kwargs "initial_request").getD .null).str (cat (files f))).dict
        .ok ⟨attributes kwargs (some d), (scan ((kwargs "initial_request").getD .null).str (cat (files f))).request,
          (arrayOf files (attributes kwargs (some d))).1, (arrayOf files (attributes kwargs (some d))).2⟩

/-- The options of the command that are parameters of the job (oar/cli/oarsub.py:257-400). -/
structure Args where
  command : Option (List Char) := none
  interactive : Bool := false
  queue : Option (List Char) := none
  resource : List (List Char) := []
  property : Option (List Char) := none
  array : Option Int := none
  arrayFile : Option (List Char) := none
  scanscript : Bool := false
  checkpoint : Int := 0
  signal : Option Int := none
  type : List (List Char) := []
  directory : Option (List Char) := none
  project : Option (List Char) := none
  name : Option (List Char) := none
  after : List (List Char) := []
  notify : Option (List Char) := none
  useKey : Bool := false
  importFile : Option (List Char) := none
  importInline : Option (List Char) := none
  exportFile : Option (List Char) := none
  stdout : Option (List Char) := none
  stderr : Option (List Char) := none
  hold : Bool := false

/-- A text or None. -/
def ofText : Option (List Char) → Val
  | none => .null
  | some s => .text s

/-- A number or None. -/
def ofNum : Option Int → Val
  | none => .null
  | some s => .num s

/-- `lstrip_none` (oar/lib/submission.py:42-46). -/
def lstripNone (v : Option (List Char)) : Val :=
  match v with
  | none => .null
  | some s => if s.isEmpty then .null else .text (s.dropWhile isSpace)

/-- The named arguments given by the command (oar/cli/oarsub.py:557-604), for a user, a current directory and a command line; no reservation,
no connection. -/
def kwargs (user cwd line : List Char) (a : Args) (key : String) : Option Val :=
  if key = "job_type" then some .null
  else if key = "resource" then some (.texts a.resource)
  else if key = "command" then some (ofText a.command)
  else if key = "info_type" then some .null
  else if key = "queue" then some (lstripNone a.queue)
  else if key = "properties" then some (lstripNone a.property)
  else if key = "checkpoint" then some (.num a.checkpoint)
  else if key = "signal" then some (ofNum a.signal)
  else if key = "notify" then some (ofText a.notify)
  else if key = "name" then some (ofText a.name)
  else if key = "types" then some (.texts (a.type.map (fun t => t.dropWhile isSpace)))
  else if key = "directory" then some (.text (a.directory.getD cwd))
  else if key = "dependencies" then some (.texts a.after)
  else if key = "stdout" then some (ofText a.stdout)
  else if key = "stderr" then some (ofText a.stderr)
  else if key = "hold" then some (.flag a.hold)
  else if key = "project" then some (ofText a.project)
  else if key = "initial_request" then some (.text line)
  else if key = "user" then some (.text user)
  else if key = "interactive" then some (.flag a.interactive)
  else if key = "reservation_date" then some (.num 0)
  else if key = "connect" then some .null
  else if key = "scanscript" then some (.flag a.scanscript)
  else if key = "array" then some (ofNum a.array)
  else if key = "array_param_file" then some (ofText a.arrayFile)
  else if key = "use_job_key" then some (.flag a.useKey)
  else if key = "import_job_key_inline" then some (ofText a.importInline)
  else if key = "import_job_key_file" then some (ofText a.importFile)
  else if key = "export_job_key_file" then some (ofText a.exportFile)
  else none

/-- What `oarsub` passes to the submission (oar/cli/oarsub.py:573-667): the array of a file given by the command line is read again and checked. The check of the other
parameters is left out. -/
def oarsub (files : List Char → Option (List Char)) (user cwd line : List Char) (a : Args) : Built :=
  match build files (kwargs user cwd line a) with
  | .ok p =>
    if a.interactive || (ofText a.command).falsy then
      (if !(ofText a.arrayFile).falsy then .refused 9 else if p.arrayNb ≠ 1 then .refused 8 else .ok p)
    else if (ofText a.arrayFile).falsy then .ok p
    else if (paramLines (cat (files (ofText a.arrayFile).str))).isEmpty then .refused 6
    else .ok { p with arrayNb := ((paramLines (cat (files (ofText a.arrayFile).str))).length : Int),
                      arrayParams := paramLines (cat (files (ofText a.arrayFile).str)) }
  | r => r

/-- The commands of the jobs created (oar/lib/submission.py:1425-1432). -/
def commands (p : Params) : List (List Char) :=
  if p.arrayParams.isEmpty then List.replicate p.arrayNb.toNat (p.attr "command").str
  else p.arrayParams.map (fun x => (p.attr "command").str ++ ' ' :: x)

end Oar.Script
