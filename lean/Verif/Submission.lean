import Verif.Tools

/-!
# Model of the submission of jobs

`oar/lib/submission.py`: parsing of the resource requests, parameter files, insertion of jobs and arrays of jobs.
Texts are lists of characters without newlines.
-/

namespace Oar.Submission

open Oar.Tools

/-! ## Parsing of the resource requests -/

/-- A count of resources in a request (`ALL`, `BEST`, `HALF_BEST` are stored as -1, -2, -3; the other values stay texts). -/
inductive Count where
  | num (t : List Char)
  | all
  | best
  | half
  deriving DecidableEq

def Count.special : Count → Bool
  | .num _ => false
  | _ => true

/-- `{property: p, resources: [{resource, value}]}`. -/
structure Grp where
  prop : List Char
  res : List (List Char × Count)
  deriving DecidableEq

/-- A moldable instance: the groups and the walltime, if any. -/
structure Inst where
  groups : List Grp
  walltime : Option Int
  deriving DecidableEq

/-- `re.search(r"^\{(.+?)\}(.*)$", s)` (oar/lib/submission.py:740): the text after the first brace up to the first closing
brace which is not its first character. -/
def braces : List Char → Option (List Char × List Char)
  | '{' :: c :: l => if '}' ∈ l then some (c :: l.takeWhile (· ≠ '}'), (l.dropWhile (· ≠ '}')).drop 1) else none
  | _ => none

/-- `s.lstrip()`. -/
def lstrip (l : List Char) : List Char := l.dropWhile Char.isWhitespace

/-- The value (oar/lib/submission.py:765-775). -/
def count (v : List Char) : Count :=
  if v = txt "ALL" then .all else if v = txt "BEST" then .best else if v = txt "HALF_BEST" then .half else .num v

/-- The result of the parsing: `raised` is the ValueError of the unpacking or of `int`. -/
inductive Parsed (α : Type) where
  | ok (a : α)
  | error (code : Int)
  | raised

/-- The loop over the levels (oar/lib/submission.py:754-784): `n` special values were met, `acc` is `resources`. -/
def levels (nodes : List Char) : List (List Char) → Nat → List (List Char × Count) → Parsed (List (List Char × Count))
  | [], _, acc => .ok acc
  | s :: l, n, acc =>
    if lstrip s = [] then levels nodes l n acc
    else match split '=' (lstrip s) with
      | [r, v] =>
        let r' := if r = txt "nodes" then nodes else r
        let n' := if (count v).special then n + 1 else n
        if 1 < n' then .error 25 else levels nodes l n' (acc ++ [(r', count v)])
      | _ => .raised

/-- One group (oar/lib/submission.py:739-786). -/
def group (nodes s : List Char) : Parsed Grp :=
  let pr := (braces s).getD ([], s)
  match levels nodes (split '/' pr.2) 0 [] with
  | .ok r => .ok ⟨pr.1, r⟩
  | .error c => .error c
  | .raised => .raised

/-- The groups of an instance, in order. -/
def groups (nodes : List Char) : List (List Char) → Parsed (List Grp)
  | [] => .ok []
  | s :: l => match group nodes s with
    | .ok g => (match groups nodes l with
      | .ok gs => .ok (g :: gs)
      | .error c => .error c
      | .raised => .raised)
    | .error c => .error c
    | .raised => .raised

/-- The walltime of an instance (oar/lib/submission.py:729-733): `none` is the exception of `hms_str_to_duration`. -/
def walltime : List (List Char) → Option (Option Int)
  | [_, w] => match split '=' w with
    | [_, t] => (hmsStrToDuration t).map some
    | _ => some none
  | _ => some none

/-- `re.match(r"walltime=.*", s)`. -/
def startsWalltime (s : List Char) : Bool := (txt "walltime=").isPrefixOf s

/-- One moldable instance (oar/lib/submission.py:722-788). -/
def inst (dflt nodes s : List Char) : Parsed Inst :=
  let f := split ',' s
  let f := if startsWalltime (f.headD []) then [dflt, f.headD []] else f
  match walltime f with
  | none => .raised
  | some w => match groups nodes (split '+' (f.headD [])) with
    | .ok gs => .ok ⟨gs, w⟩
    | .error c => .error c
    | .raised => .raised

/-- The loop over the instances. -/
def insts (dflt nodes : List Char) : List (List Char) → Parsed (List Inst)
  | [] => .ok []
  | s :: l => match inst dflt nodes s with
    | .ok i => (match insts dflt nodes l with
      | .ok is => .ok (i :: is)
      | .error c => .error c
      | .raised => .raised)
    | .error c => .error c
    | .raised => .raised

/-- Models `parse_resource_descriptions` (oar/lib/submission.py:684-790). -/
def parse (dflt nodes : List Char) (reqs : List (List Char)) : Parsed (List Inst) :=
  insts dflt nodes (if reqs = [] then [dflt] else reqs)

/-! ## Submission -/

/-- Models `read_array_param_file` (oar/lib/submission.py:228-253) for a readable file: `re.match(r"#.*|^\s*$", line)`. -/
def paramLines (lines : List (List Char)) : List (List Char) :=
  lines.filter (fun l => !(l.head? = some '#' || l.all Char.isWhitespace))

/-- The parameters of a file given through the API (oar/api/routers/job.py:367-370): `param_file.split("\n")`. -/
def apiParams (file : List Char) : List (List Char) := split '\n' file

/-- The parts of `JobParameters` used here. `props` is `properties`, `admin` is `properties_applied_after_validation`,
`resv` is `reservation_date` (0: none). -/
structure Params where
  command : List Char
  params : List (List Char)
  arrayNb : Int
  useKey : Bool
  types : List (List Char)
  queue : String
  hold : Bool
  resv : Int
  deps : List Nat
  props : List Char
  admin : Option (List Char)
  request : List Inst
  deriving DecidableEq

/-- A row of `jobs`. -/
structure SJob where
  id : Nat
  arrayId : Nat
  index : Nat
  command : List Char
  state : String
  reservation : String
  start : Int
  props : List Char
  queue : String
  deriving DecidableEq

structure SMold where
  id : Nat
  job : Nat
  walltime : Int
  deriving DecidableEq

structure SGrp where
  id : Nat
  mold : Nat
  prop : List Char
  deriving DecidableEq

structure SDesc where
  group : Nat
  type : List Char
  value : Count
  order : Nat
  deriving DecidableEq

/-- The tables filled by a submission; `nj`, `nm`, `ng` are the next values of the identifiers. The queries without
`order_by` return the rows in the order of insertion. -/
structure DB where
  nj : Nat
  nm : Nat
  ng : Nat
  jobs : List SJob
  molds : List SMold
  groups : List SGrp
  descs : List SDesc
  types : List (Nat × List Char)
  deps : List (Nat × Nat)
  logs : List (Nat × String × Int)
  deriving DecidableEq

/-- Rows with identifiers from `n`. -/
def number {α : Type} : Nat → List α → List (Nat × α)
  | _, [] => []
  | n, a :: l => (n, a) :: number (n + 1) l

/-- The properties with those of the administrator (oar/lib/submission.py:930-941, 1148-1159). -/
def withAdmin (p : Params) : List Char :=
  match p.admin with
  | none => p.props
  | some a => if p.props ≠ [] then '(' :: (p.props ++ txt ") AND " ++ a) else a

/-- `if not walltime: walltime = config["DEFAULT_JOB_WALLTIME"]`. -/
def wall (dw : Int) (w : Option Int) : Int := match w with
  | none => dw
  | some t => if t = 0 then dw else t

/-- The rows of `job_resource_descriptions` of a group. -/
def descRows (gid : Nat) (res : List (List Char × Count)) : List SDesc :=
  (number 0 res).map (fun x => ⟨gid, x.2.1, x.2.2, x.1⟩)

/-- The groups and the descriptions of one moldable (oar/lib/submission.py:1042-1088). -/
def insGroups (db : DB) (mid : Nat) (gs : List Grp) : DB :=
  let db1 : DB := { db with ng := db.ng + gs.length, groups := db.groups ++ (number db.ng gs).map (fun x => (⟨x.1, mid, x.2.prop⟩ : SGrp)) }
  let ids : List Nat := (db1.groups.filter (fun g => g.mold = mid)).map (·.id)
  { db1 with descs := db1.descs ++ (ids.zip gs).flatMap (fun x => descRows x.1 x.2.res) }

/-- The moldables of a job (oar/lib/submission.py:1008-1088). -/
def insRequest (dw : Int) (db : DB) (jid : Nat) (req : List Inst) : DB :=
  let db1 : DB := { db with nm := db.nm + req.length, molds := db.molds ++ (number db.nm req).map (fun x => (⟨x.1, jid, wall dw x.2.walltime⟩ : SMold)) }
  let ids : List Nat := (db1.molds.filter (fun m => m.job = jid)).map (·.id)
  (ids.zip req).foldl (fun d x => insGroups d x.1 x.2.groups) db1

/-- The log of the state and the state itself (oar/lib/submission.py:1101-1118). -/
def stateOf (p : Params) : String := if p.hold then "Hold" else "Waiting"

/-- Models `add_micheline_subjob` (oar/lib/submission.py:901-1119) when the estimation of the resources succeeds
(`est properties` is the error code of `estimate_job_nb_resources`). Challenges, messages and output files are not
modelled. The properties are those of the parameters, which are changed. -/
def addSubjob (dw : Int) (est : List Char → Int) (date : Int) (db : DB) (p : Params) (arrayId index : Nat) (cmd : List Char) :
    Int × Nat × Params × DB :=
  if est p.props ≠ 0 then (est p.props, 0, p, db)
  else
    let p' := { p with props := withAdmin p }
    let jid := db.nj
    let row : SJob := ⟨jid, if 0 < arrayId then arrayId else jid, index, cmd, stateOf p, if p.resv ≠ 0 then "toSchedule" else "None",
      p.resv, p'.props, p.queue⟩
    let db1 : DB := insRequest dw { db with nj := db.nj + 1, jobs := db.jobs ++ [row] } jid p.request
    (0, jid, p', { db1 with
      types := db1.types ++ p.types.map (fun t => (jid, t))
      deps := db1.deps ++ p.deps.map (fun d => (jid, d))
      logs := db1.logs ++ [(jid, stateOf p, date)] })

/-- Models `add_micheline_simple_array_job` (oar/lib/submission.py:1122-1341) for at least two commands: the column
`reservation` keeps its default value; `none`: the exception when the estimation failed (`None[0]`). -/
def addArray (dw : Int) (est : List Char → Int) (date : Int) (db : DB) (p : Params) (cmds : List (List Char)) :
    Option (Int × List Nat × DB) :=
  match p.request with
  | [r] =>
    if est p.props ≠ 0 then none
    else
      let aid := db.nj
      let db1 : DB := { db with nj := db.nj + cmds.length, jobs := db.jobs ++ (number 0 cmds).map (fun x => (⟨db.nj + x.1, aid, 1 + x.1, x.2, stateOf p, "None", p.resv, withAdmin p, p.queue⟩ : SJob)) }
      let jids : List Nat := (db1.jobs.filter (fun j => j.arrayId = aid)).map (·.id)
      let db2 : DB := { db1 with nm := db1.nm + jids.length, molds := db1.molds ++ (number db1.nm jids).map (fun x => (⟨x.1, x.2, wall dw r.walltime⟩ : SMold)) }
      let mids : List Nat := (db2.molds.filter (fun m => jids.contains m.job)).map (·.id)
      let new : List (Nat × List Char) := mids.flatMap (fun mid => r.groups.map (fun g => (mid, g.prop)))
      let db3 : DB := { db2 with ng := db2.ng + new.length, groups := db2.groups ++ (number db2.ng new).map (fun x => (⟨x.1, x.2.1, x.2.2⟩ : SGrp)) }
      let gids : List Nat := (db3.groups.filter (fun g => mids.contains g.mold)).map (·.id)
      let db4 : DB := { db3 with descs := db3.descs ++ (gids.zip (cmds.flatMap (fun _ => r.groups))).flatMap (fun x => descRows x.1 x.2.res) }
      some (0, jids, { db4 with
        types := db4.types ++ jids.flatMap (fun i => p.types.map (fun t => (i, t)))
        deps := db4.deps ++ jids.flatMap (fun i => p.deps.map (fun d => (i, d)))
        logs := db4.logs ++ jids.map (fun i => (i, stateOf p, date)) })
  | _ => some (-30, [], db)

/-- The loop for a single job, or when a job key is used (oar/lib/submission.py:1453-1482); the keys are not modelled
(`job_key_management` succeeds). -/
def addLoop (dw : Int) (est : List Char → Int) (date : Int) : DB → Params → Nat → Nat → List (List Char) → List Nat → Int × List Nat × DB
  | db, _, _, _, [], ids => (0, ids, db)
  | db, p, aid, index, c :: cs, ids =>
    match addSubjob dw est date db p aid index c with
    | (0, jid, p', db') => addLoop dw est date db' p' (if 0 < aid then aid else (ids ++ [jid]).headD 0) (index + 1) cs (ids ++ [jid])
    | (e, _, _, db') => (e, ids, db')

/-- The commands of the jobs (oar/lib/submission.py:1425-1432). -/
def commands (p : Params) : List (List Char) :=
  if p.params ≠ [] then p.params.map (fun a => p.command ++ ' ' :: a) else List.replicate p.arrayNb.toNat p.command

/-- Models `add_micheline_jobs` (oar/lib/submission.py:1343-1522) once the syntax checks are passed: `rules` are the
admission rules (`none`: a rule raised), `queues` the names of the queues. The error of the array path is dropped. -/
def submit (quotas : Bool) (queues : List String) (rules : Params → Option Params) (dw : Int) (est : List Char → Int) (date : Int)
    (db : DB) (p : Params) : Option (Int × List Nat × DB) :=
  let p1 := if quotas then { p with types := p.types.erase (txt "no_quotas") } else p
  match rules p1 with
  | none => some (-2, [], db)
  | some p2 =>
    if p2.queue ∉ queues then some (-8, [], db)
    else
      let p3 := if quotas ∧ p2.queue = "admin" then { p2 with types := p2.types ++ [txt "no_quotas"] } else p2
      let cmds := commands p3
      if 1 < cmds.length ∧ p3.useKey = false then (addArray dw est date db p3 cmds).map (fun x => (0, x.2.1, x.2.2))
      else some (addLoop dw est date db p3 0 1 cmds [])

end Oar.Submission
