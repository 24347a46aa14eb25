/-!
# Model of the numbering of resources used by the schedulers

`oar/lib/resource.py`, and the resource constraints of the jobs (`oar/lib/job_handling.py`).
-/

namespace Oar.ResSet

/-- A row of `resources`; the other columns are given by `col` (label, value). -/
structure Res where
  id : Nat
  state : String
  type : String
  upto : Int
  host : String
  col : String → String

/-- `MAX_NB_RESOURCES` (oar/lib/resource.py:11). -/
def maxRes : Nat := 100000

/-- The attributes of `ResourceSet` (oar/lib/resource.py:17-135). The sets of intervals are lists of ordered numbers; the arrays are
functions with value 0 where nothing was written; `hy`: for each label, the blocks in order of appearance. -/
structure RS where
  nbAll : Nat
  nbNotDead : Nat
  nbDefaultNotDead : Nat
  nbAbsent : Nat
  nbDefault : Nat
  i2o : Nat → Nat
  o2i : Nat → Nat
  roids : List Nat
  absent : List Nat
  suspendable : List Nat
  defaultRids : List Nat
  hy : List (String × List (String × List Nat))
  upto : List (Int × List Nat)

/-- `if v in d: d[v].append(k) else: d[v] = [k]` for a dictionary in order of insertion. -/
def groupAdd {α : Type} [DecidableEq α] (v : α) (k : Nat) : List (α × List Nat) → List (α × List Nat)
  | [] => [(v, [k])]
  | (w, l) :: r => if w = v then (w, l ++ [k]) :: r else (w, l) :: groupAdd v k r

/-- `getattr(r, hy_label)`. -/
def Res.value (r : Res) (label : String) : String := if label = "id" then toString r.id else if label = "network_address" then r.host else r.col label

/-- `(r.state == "Alive") or (r.state == "Absent")` (oar/lib/resource.py:78). -/
def Res.usable (r : Res) : Bool := r.state == "Alive" || r.state == "Absent"

/-- The initial structures (oar/lib/resource.py:17-68); the dictionary of labels has no duplicate. -/
def init (labels : List String) : RS :=
  ⟨0, 0, 0, 0, 0, fun _ => 0, fun _ => 0, [], [], [], [], labels.map (fun l => (l, [])), []⟩

/-- The body of the loop for a usable resource (oar/lib/resource.py:79-110): `nb_resources_default = +1` is an assignment. -/
def addUsable (susp : List String) (k : Nat) (r : Res) (s : RS) : RS :=
  { s with
    roids := s.roids ++ [k]
    defaultRids := if r.type = "default" then s.defaultRids ++ [r.id] else s.defaultRids
    nbDefault := if r.type = "default" then 1 else s.nbDefault
    i2o := fun i => if i = r.id then k else s.i2o i
    o2i := fun i => if i = k then r.id else s.o2i i
    hy := s.hy.map (fun p => (p.1, groupAdd (r.value p.1) k p.2))
    upto := groupAdd r.upto k s.upto
    suspendable := if r.type ∈ susp then s.suspendable ++ [k] else s.suspendable
    nbAbsent := if r.state = "Absent" then s.nbAbsent + 1 else s.nbAbsent
    absent := if r.state = "Absent" then s.absent ++ [k] else s.absent }

/-- The body of the loop (oar/lib/resource.py:71-112); `none`: IndexError on the arrays. -/
def addRes (susp : List String) (k : Nat) (r : Res) (s : RS) : Option RS :=
  let s1 := { s with
    nbAll := s.nbAll + 1
    nbNotDead := if r.state ≠ "Dead" then s.nbNotDead + 1 else s.nbNotDead
    nbDefaultNotDead := if r.state ≠ "Dead" ∧ r.type = "default" then s.nbDefaultNotDead + 1 else s.nbDefaultNotDead }
  if r.usable then (if r.id < maxRes ∧ k < maxRes then some (addUsable susp k r s1) else none) else some s1

/-- The loop over the resources in the configured order, from the ordered number `k`. -/
def load (susp : List String) : Nat → List Res → RS → Option RS
  | _, [], s => some s
  | k, r :: rs, s => (addRes susp k r s).bind (load susp (k + 1) rs)

/-- Models `ResourceSet.__init__` (oar/lib/resource.py:17-135): the rows in the configured order, the types of the resources that a suspended job
frees, the labels of the hierarchy (`id` for `resource_id`). -/
def build (susp labels : List String) (rs : List Res) : Option RS := load susp 0 rs (init labels)

/-- `default_itvs` (oar/lib/resource.py:133-134). -/
def RS.defaults (s : RS) : List Nat := s.defaultRids.map s.i2o

/-! ## The constraints of a job -/

/-- A condition on resources, written without parentheses: an OR of ANDs of tests. -/
abbrev Cond := List (List (Res → Bool))

/-- The meaning of a condition: AND binds more than OR. -/
def Cond.eval (c : Cond) (r : Res) : Bool := c.any (fun conj => conj.all (fun a => a r))

/-- `j_properties + " AND " + jrg_grp_property` (oar/lib/job_handling.py:349-357), read by the database: the last conjunction of the first text and
the first one of the second are merged. `[]`: no condition. -/
def textAnd (p g : Cond) : Cond :=
  match p.reverse, g with
  | [], g => g
  | _, [] => p
  | l :: i, h :: t => i.reverse ++ (l ++ h) :: t

/-- The rows selected (oar/lib/job_handling.py:361-363, `filter(text(...))`; the empty text selects everything). -/
def select (c : Cond) (rs : List Res) : List Res := if c = [] then rs else rs.filter c.eval

/-- Models the resource constraints of a job (oar/lib/job_handling.py:341-368, oar/lib/submission.py:820-853): the default resources when there is no
condition (the text `type = 'default'` of the group is treated as no condition), otherwise the ordered numbers of the rows selected. -/
def constraints (s : RS) (rs : List Res) (p g : Cond) : List Nat :=
  if p = [] ∧ g = [] then s.defaults else (select (textAnd p g) rs).map (fun r => s.i2o r.id)

end Oar.ResSet
