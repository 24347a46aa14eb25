import Verif.Submission

/-!
# Model of the reading of the requests by the schedulers

`get_data_jobs` (`oar/lib/job_handling.py`), over the tables filled by the submission.
-/

namespace Oar.Submission

/-- A row of the query of `get_data_jobs`. -/
structure Row where
  jid : Nat
  props : List Char
  mid : Nat
  wall : Int
  gid : Nat
  gprop : List Char
  level : List Char × Count
  deriving DecidableEq

def insertBy {α : Type} (k : α → Nat) (a : α) : List α → List α
  | [] => [a]
  | b :: l => if k a ≤ k b then a :: b :: l else b :: insertBy k a l

/-- `order_by` a key. -/
def sortBy {α : Type} (k : α → Nat) : List α → List α
  | [] => []
  | a :: l => insertBy k a (sortBy k l)

/-- The query of `get_data_jobs` (oar/lib/job_handling.py:230-256): the join of the tables, ordered by moldable, group
and order (moldables and groups have distinct identifiers). -/
def query (db : DB) (jids : List Nat) : List Row :=
  (sortBy (fun a : SMold => a.id) db.molds).flatMap (fun m =>
    (db.jobs.filter (fun j => j.id = m.job && jids.contains j.id)).flatMap (fun j =>
      (sortBy (fun a : SGrp => a.id) (db.groups.filter (fun g => g.mold = m.id))).flatMap (fun g =>
        (sortBy (fun a : SDesc => a.order) (db.descs.filter (fun d => d.group = g.id))).map (fun d =>
          (⟨j.id, j.props, m.id, m.walltime, g.id, g.prop, (d.type, d.value)⟩ : Row)))))

/-- The constraints of a group: `none` is the set of the default resources, `some q` the resources selected by the text
`q` (oar/lib/job_handling.py:341-371). -/
def constraints (props gprop : List Char) : Option (List Char) :=
  if props = [] ∧ (gprop = [] ∨ gprop = Tools.txt "type = 'default'") then none
  else some (props ++ (if props ≠ [] ∧ gprop ≠ [] then Tools.txt " AND " else []) ++ gprop)

/-- A group of a request: levels and constraints. -/
abbrev GReq := List (List Char × Count) × Option (List Char)

/-- A moldable: identifier, walltime, groups. -/
abbrev MReq := Nat × Int × List GReq

/-- The variables of the loop; `first` is `first_job`, `out` the assignments `job.mld_res_rqts = …` in order. -/
structure St where
  first : Bool
  prevJ : Nat
  prevM : Nat
  prevG : Nat
  wall : Int
  mlds : List MReq
  jrg : List GReq
  jr : List (List Char × Count)
  rc : Option (List Char)
  out : List (Nat × List MReq)

def St.init : St := ⟨true, 0, 0, 0, 0, [], [], [], none, []⟩

/-- The walltime (oar/lib/job_handling.py:312-315, 329-332). -/
def wallOf (sec be : Int) (x : Row) : Int := if be ≠ 0 then be else x.wall + sec

/-- `l[-1] = f(l[-1])` by aliasing. -/
def mapLast {α : Type} (f : α → α) : List α → List α
  | [] => []
  | [a] => [f a]
  | a :: b :: l => a :: mapLast f (b :: l)

/-- A new job or a new moldable (oar/lib/job_handling.py:288-332). -/
def enter (sec be : Int) (s : St) (x : Row) : St :=
  if x.jid ≠ s.prevJ then
    if s.first then { s with first := false, prevM := x.mid, prevJ := x.jid, wall := wallOf sec be x }
    else { s with out := s.out ++ [(s.prevJ, s.mlds ++ [(s.prevM, s.wall, s.jrg ++ [(s.jr, s.rc)])])], mlds := [], jrg := [], jr := [], prevM := x.mid, prevJ := x.jid, wall := wallOf sec be x }
  else if x.mid ≠ s.prevM then
    { s with mlds := (if s.jrg ≠ [] then s.mlds ++ [(s.prevM, s.wall, s.jrg)] else s.mlds), prevM := x.mid, jrg := [], jr := [], wall := wallOf sec be x }
  else s

/-- The levels and the groups (oar/lib/job_handling.py:334-379); `prev_res_jrg_id` and `prev_jrg_id` are equal. The list
of the levels is shared with the group already appended, so that the next levels are added to both. -/
def level (s : St) (x : Row) : St :=
  if x.gid ≠ s.prevG then
    { s with prevG := x.gid, jr := [x.level], rc := constraints x.props x.gprop, jrg := s.jrg ++ [([x.level], constraints x.props x.gprop)] }
  else { s with jr := s.jr ++ [x.level], jrg := mapLast (fun g => (s.jr ++ [x.level], g.2)) s.jrg }

def step (sec be : Int) (s : St) (x : Row) : St := level (enter sec be s x) x

/-- The assignments `job.mld_res_rqts = …` of the loop and of its end (oar/lib/job_handling.py:295-297, 381-384); `none`: no row, an exception. -/
def readRows (sec be : Int) (rows : List Row) : Option (List (Nat × List MReq)) :=
  if rows = [] then none
  else
    let s := rows.foldl (step sec be) St.init
    some (s.out ++ [(s.prevJ, s.mlds ++ [(s.prevM, s.wall, s.jrg)])])

/-- Models `get_data_jobs` (oar/lib/job_handling.py:209-395), for the requests: the types and the dependencies are
modelled elsewhere, and the cache of the constraints has no effect. `sec` is the security time and `be` the duration
of the best-effort jobs, if any. -/
def getDataJobs (sec be : Int) (db : DB) (jids : List Nat) : Option (List (Nat × List MReq)) := readRows sec be (query db jids)

/-- The request of a job at the end: the last assignment. -/
def dataOf (l : List (Nat × List MReq)) (jid : Nat) : Option (List MReq) := (l.reverse.lookup jid)

end Oar.Submission
