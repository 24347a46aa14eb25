import Verif.Script
import Verif.Notify

/-!
# Model of the submission of jobs with the API

`submit` of `oar/api/routers/job.py`, with the constructor and the checks of `JobParameters` (`oar/lib/submission.py`).
-/

namespace Oar.ApiSubmit

open Oar.Tools Oar.Script

/-- The body of a request (oar/api/routers/job.py:232-259); its keys are those of the manual. -/
structure Request where
  command : List Char
  resource : List (List Char) := []
  workdir : Option (List Char) := none
  paramFile : Option (List Char) := none
  array : Option Int := none
  queue : Option (List Char) := none
  reservation : Option (List Char) := none
  signal : Option Int := none
  directory : Option (List Char) := none
  project : Option (List Char) := none
  name : Option (List Char) := none
  notify : Option (List Char) := none
  resubmit : Option Int := none
  stdout : Option (List Char) := none
  stderr : Option (List Char) := none
  hold : Option Bool := none
  checkpoint : Int := 0
  types : Option (List (List Char)) := none
  dependencies : Option (List Int) := none
  importInline : Option (List Char) := none
  exportFile : Option (List Char) := none
  importFile : Option (List Char) := none
  properties : Option (List Char) := none
  useKey : Bool := false

/-- The outside: the home directory of the user, the dates that `check_reservation` understands, the names with a forbidden character, the errors of
`parse_resource_descriptions`. -/
structure World where
  home : List Char
  date : List Char → Option Int
  nameBad : List Char → Bool
  resourceError : List (List Char) → Int

/-- Whether a text is somewhere in another one. -/
def occurs (p : List Char) : List Char → Bool
  | [] => p.isPrefixOf []
  | c :: r => p.isPrefixOf (c :: r) || occurs p r

/-- `s.replace("$HOME", home)`, from the left to the right, with a bound on the number of characters. -/
def replaceHome (home : List Char) : Nat → List Char → List Char
  | 0, s => s
  | _ + 1, [] => []
  | n + 1, c :: r =>
    match after (txt "$HOME") (c :: r) with
    | some t => home ++ replaceHome home n t
    | none => c :: replaceHome home n r

/-- The replacement of `$HOME` when the first line has it: `re.match(r".*\$HOME.*", s)` (oar/api/routers/job.py:358-365). -/
def homed (home s : List Char) : List Char :=
  if occurs (txt "$HOME") (s.takeWhile (fun c => c != '\n')) then replaceHome home s.length s else s

/-- Numbers of jobs as a value. -/
def ofInts : Option (List Int) → Val
  | none => .null
  | some l => .nums l

/-- A list of texts or None. -/
def ofTexts : Option (List (List Char)) → Val
  | none => .null
  | some l => .texts l

/-- A flag or None. -/
def ofFlag : Option Bool → Val
  | none => .null
  | some b => .flag b

/-- The date given to the constructor: 0 without reservation, None when it is not understood, the error being ignored (oar/api/routers/job.py:352-356). -/
def reservationDate (w : World) (r : Request) : Val :=
  match r.reservation with
  | none => .num 0
  | some s => if s = [] then .num 0 else ofNum (w.date s)

/-- The lines of the parameters (oar/api/routers/job.py:367-370). -/
def arrayParams (r : Request) : List (List Char) :=
  match r.paramFile with
  | none => []
  | some s => if s = [] then [] else split '\n' s

/-- The named arguments of the constructor (oar/api/routers/job.py:375-405). -/
def kwargs (w : World) (user : List Char) (r : Request) (key : String) : Option Val :=
  if key = "job_type" then some (.text (txt "PASSIVE"))
  else if key = "command" then some (.text (homed w.home r.command))
  else if key = "resource" then some (.texts r.resource)
  else if key = "workdir" then some (ofText (r.workdir.map (homed w.home)))
  else if key = "array_params" then some (.texts (arrayParams r))
  else if key = "array" then some (ofNum r.array)
  else if key = "queue" then some (ofText r.queue)
  else if key = "properties" then some (ofText r.properties)
  else if key = "reservation" then some (reservationDate w r)
  else if key = "checkpoint" then some (.num r.checkpoint)
  else if key = "signal" then some (ofNum r.signal)
  else if key = "types" then some (ofTexts r.types)
  else if key = "directory" then some (ofText (r.directory.map (homed w.home)))
  else if key = "project" then some (ofText r.project)
  else if key = "initial_request" then some (.text [])
  else if key = "user" then some (.text user)
  else if key = "name" then some (ofText r.name)
  else if key = "dependencies" then some (ofInts r.dependencies)
  else if key = "notify" then some (ofText r.notify)
  else if key = "resubmit" then some (ofNum r.resubmit)
  else if key = "use_job_key" then some (.flag r.useKey)
  else if key = "import_job_key_from_file" then some (ofText r.importFile)
  else if key = "import_job_key_inline" then some (ofText r.importInline)
  else if key = "export_job_key_to_file" then some (ofText r.exportFile)
  else if key = "stdout" then some (ofText r.stdout)
  else if key = "stderr" then some (ofText r.stderr)
  else if key = "hold" then some (ofFlag r.hold)
  else none

/-- The named arguments that the constructor reads (oar/lib/submission.py:80-117): the others are ignored. -/
def known (kw : String → Option Val) (key : String) : Option Val := if key ∈ keys then kw key else none

/-- The texts of a value. -/
def Val.list : Val → List (List Char)
  | .texts l => l
  | _ => []

/-- The parameters built: those of `build` (no file is read: there is neither script nor file of parameters), with the lines given
(oar/lib/submission.py:113-117). -/
def params (w : World) (user : List Char) (r : Request) : Params :=
  { attr := attributes (known (kwargs w user r)) none,
    request := if (attrib (known (kwargs w user r)) none "initial_request").falsy then (attrib (known (kwargs w user r)) none "command").str
      else (attrib (known (kwargs w user r)) none "initial_request").str,
    arrayNb := (arrayOf (fun _ => none) (attributes (known (kwargs w user r)) none)).1,
    arrayParams := Val.list (attributes (known (kwargs w user r)) none "array_params") }

/-- Models `check_parameters` (oar/lib/submission.py:179-226) on these parameters: the interactive and connection cases are out of reach of the API. -/
def checkParameters (w : World) (p : Params) : Int :=
  if w.resourceError (Val.list (p.attr "resource")) ≠ 0 then w.resourceError (Val.list (p.attr "resource"))
  else if (p.attr "command").falsy ∧ (p.attr "reservation_date").falsy ∧ txt "noop" ∉ Val.list (p.attr "types") then 5
  else if (p.attr "notify").str ≠ [] ∧ Notify.hasExec (p.attr "notify").str = true ∧ Notify.execCmd (p.attr "notify").str = none then 16
  else if (p.attr "name").str ≠ [] ∧ w.nameBad (p.attr "name").str = true then 16
  else 0

/-- What the function answers: the status and the number of the job. -/
structure Answer where
  status : Nat
  id : Option Nat
  deriving DecidableEq

/-- The smallest of a list. -/
def smallest : List Nat → Option Nat
  | [] => none
  | a :: l => some (l.foldl min a)

/-- Models `submit` (oar/api/routers/job.py:262-430): the parameters given to `Submission.submit`, if any, and the answer; `sub` is the result of `Submission.submit`: the
code and the numbers of the jobs created. No message is sent to Almighty. -/
def submit (w : World) (sub : Params → Int × List Nat) (user : List Char) (r : Request) : Option Params × Answer :=
  if checkParameters w (params w user r) ≠ 0 then (none, ⟨501, none⟩)
  else if (sub (params w user r)).1 = -2 then (some (params w user r), ⟨403, none⟩)
  else if (sub (params w user r)).1 ≠ 0 then (some (params w user r), ⟨400, none⟩)
  else (some (params w user r), ⟨200, smallest (sub (params w user r)).2⟩)

/-- The start date of the jobs: `reservation_date` when it is true (oar/lib/submission.py:1373-1374). -/
def startOf (p : Params) : Int :=
  match p.attr "reservation_date" with
  | .num n => n
  | _ => 0

end Oar.ApiSubmit
