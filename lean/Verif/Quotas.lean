import Verif.Basic

/-!
# Model of the counters and rules of `oar/kao/quotas.py` (class `Quotas`)
-/

namespace Oar.Quotas

/-- The three quantities of a counter or of a rule: number of busy resources, number of jobs,
resources × seconds (oar/kao/quotas.py:538-539, `[0, 0, 0]`). -/
structure Cnt where
  res : Int
  jobs : Int
  time : Int
  deriving DecidableEq, Repr

/-- A quota key `(queue, project, job type, user)` (oar/kao/quotas.py:421-424). -/
structure Key where
  queue : String
  project : String
  type : String
  user : String
  deriving DecidableEq, Repr

/-- `counters = defaultdict(lambda: [0, 0, 0])` (oar/kao/quotas.py:539) as an association list in
insertion order. -/
abbrev Counters := List (Key × Cnt)

/-- A dict of rules, key ↦ limits (oar/kao/quotas.py:541-544); `-1` is "no limit". -/
abbrev Rules := List (Key × Cnt)

/-- The attributes of a job used by the quotas code (oar/kao/quotas.py:556-558, 648-653).
`types` are the keys of `job.types`, in order. -/
structure QJob where
  queue : String
  project : String
  types : List String
  user : String
  deriving DecidableEq, Repr

/-- `self.counters[k][0..2] += (r, j, w)` on a default dict (oar/kao/quotas.py:577-602). -/
def addTo (k : Key) (d : Cnt) : Counters → Counters
  | [] => [(k, d)]
  | (k', c) :: l =>
    if k' = k then (k', ⟨c.res + d.res, c.jobs + d.jobs, c.time + d.time⟩) :: l
    else (k', c) :: addTo k d l

/-- The eight keys incremented for one job type `t`, in order (oar/kao/quotas.py:577-584). -/
def keys8 (j : QJob) (t : String) : List Key :=
  [⟨"*", "*", t, "*"⟩, ⟨"*", "*", t, j.user⟩, ⟨"*", j.project, t, "*"⟩, ⟨j.queue, "*", t, "*"⟩,
   ⟨j.queue, j.project, t, j.user⟩, ⟨j.queue, j.project, t, "*"⟩, ⟨j.queue, "*", t, j.user⟩,
   ⟨"*", j.project, t, j.user⟩]

/-- Models `Quotas.update` (oar/kao/quotas.py:555-602), with `nb` the number of default resources and
`dur` the duration that l.560-572 select. `jobTypes` is the class attribute `Quotas.job_types`. -/
def update (jobTypes : List String) (j : QJob) (nb dur : Int) (c : Counters) : Counters :=
  jobTypes.foldl (fun c t =>
    if t = "*" ∨ t ∈ j.types then
      (keys8 j t).foldl (fun c k => addTo k ⟨nb, 1, nb * dur⟩ c) c
    else c) c

/-- One iteration of `Quotas.combine`: `max` for the instantaneous quantities, sum for the
resource-time (oar/kao/quotas.py:607-609). -/
def combineKey (k : Key) (v : Cnt) : Counters → Counters
  | [] => [(k, ⟨max 0 v.res, max 0 v.jobs, v.time⟩)]
  | (k', c) :: l =>
    if k' = k then (k', ⟨max c.res v.res, max c.jobs v.jobs, c.time + v.time⟩) :: l
    else (k', c) :: combineKey k v l

/-- Models `Quotas.combine` (oar/kao/quotas.py:604-609). -/
def combine (other : Counters) (self : Counters) : Counters :=
  other.foldl (fun c kv => combineKey kv.1 kv.2 c) self

/-- `get_item` (oar/kao/quotas.py:654-662): the most specific entry of a level of the rule tree.
`d` is the list of the labels of that level. -/
def getItem (d : List String) (value : String) : Option String :=
  if value ∈ d then some value
  else if "/" ∈ d then some "/"
  else if "*" ∈ d then some "*"
  else none

/-- Models `init_rule_tree` + `find_applicable_rule` (oar/kao/quotas.py:612-705). The nested
dictionaries are represented by the list of rules having a given prefix, whose labels at the next
level are the keys of the sub-dictionary. Only the first element of `list(job_types) +
Quotas.job_types` is looked at (the `break` of l.681). Returns the limits and the key of the
counter they apply to; `none` when no rule applies. (`jobTypes` empty: the loop body is never
executed and no rule applies.) -/
def findApplicable (jobTypes : List String) (rules : Rules) (j : QJob) : Option (Cnt × Key) :=
  match getItem (rules.map (·.1.queue)) j.queue with
  | none => none
  | some kq =>
    let r1 := rules.filter (fun r => r.1.queue = kq)
    match getItem (r1.map (·.1.project)) j.project with
    | none => none
    | some kp =>
      let r2 := r1.filter (fun r => r.1.project = kp)
      match j.types ++ jobTypes with
      | [] => none
      | jt :: _ =>
        match getItem (r2.map (·.1.type)) jt with
        | none => none
        | some kt =>
          let r3 := r2.filter (fun r => r.1.type = kt)
          match getItem (r3.map (·.1.user)) j.user with
          | none => none
          | some ku =>
            match r3.find? (fun r => r.1.user = ku) with
            | none => none
            | some r =>
              some (r.2, ⟨if kq = "/" then j.queue else kq, if kp = "/" then j.project else kp, kt,
                if ku = "/" then j.user else ku⟩)

/-- Outcome of a check: `none` is "quotas ok"; otherwise which of the three limits failed
(1: resources, 2: jobs, 3: resource-time) and its value (oar/kao/quotas.py:707-745). -/
abbrev Failure := Option (Nat × Int)

/-- The three tests of `Quotas.check` (oar/kao/quotas.py:719-744). -/
def checkLimits (rl c : Cnt) : Failure :=
  if rl.res > -1 ∧ rl.res < c.res then some (1, rl.res)
  else if rl.jobs > -1 ∧ rl.jobs < c.jobs then some (2, rl.jobs)
  else if rl.time > -1 ∧ rl.time < c.time then some (3, rl.time)
  else none

/-- Models `Quotas.check` (oar/kao/quotas.py:707-745). A missing counter means no limit. -/
def check (jobTypes : List String) (rules : Rules) (c : Counters) (j : QJob) : Failure :=
  match findApplicable jobTypes rules j with
  | none => none
  | some (rl, k) =>
    match c.lookup k with
    | none => none
    | some cnt => checkLimits rl cnt

/-- The quotas state of a slot: counters, rules and `quotas_rules_id` (oar/kao/slot.py:85-87). -/
structure SlotQuotas where
  counters : Counters
  rules : Rules
  rulesId : Int
  deriving DecidableEq, Repr

/-- The class attributes `enabled`, `default_rules`, `job_types` of `Quotas`
(oar/kao/quotas.py:514-518) and `ResourceSet.default_itvs` used by `update` (l.563). -/
structure Env where
  enabled : Bool
  defaultRules : Rules
  jobTypes : List String
  defaultItvs : ProcSet
  deriving DecidableEq

/-- The dict `slots_quotas` of `check_slots_quotas`: rules id ↦ (rules, combined counters). -/
abbrev Groups := List (Int × (Rules × Counters))

/-- One step of the slot loop of `check_slots_quotas` (oar/kao/quotas.py:760-770).
`Quotas(rules)` replaces empty rules by the default ones (l.541-544). -/
def groupStep (env : Env) (q : SlotQuotas) : Groups → Groups
  | [] => [(q.rulesId, (if q.rules.isEmpty then env.defaultRules else q.rules, combine q.counters []))]
  | (i, (r, c)) :: gs =>
    if i = q.rulesId then (i, (r, combine q.counters c)) :: gs else (i, (r, c)) :: groupStep env q gs

/-- Models `check_slots_quotas` (oar/kao/quotas.py:748-787) on the list of the quotas of the slots
from `sid_left` to `sid_right` (not empty). The first failure is returned. -/
def checkSlots (env : Env) (slots : List SlotQuotas) (j : QJob) (nb dur : Int) : Failure :=
  (slots.foldl (fun g q => groupStep env q g) []).findSome? (fun g =>
    check env.jobTypes g.2.1 (update env.jobTypes j nb dur g.2.2) j)

end Oar.Quotas
