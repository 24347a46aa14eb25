import Verif.Accounting
import Mathlib.Algebra.Order.Field.Rat

/-!
# Model of the order in which queues and waiting jobs are considered

`oar/lib/queue.py`, `oar/kao/kamelot.py` (sorting and cap), `oar/kao/karma.py`,
`oar/kao/multifactor_priority.py`, `oar/lib/job_handling.py: get_waiting_jobs`.

Simplification: floating point numbers are rationals (no rounding, no overflow); Python exceptions are `none`.
-/

namespace Oar.Queues

open Oar.Accounting

/-- A row of the table `queues` (the columns the meta-scheduler reads). -/
structure Queue where
  name : String
  priority : Int
  active : Bool
  deriving DecidableEq, Repr

/-- `itertools.groupby(l, key)` with each group made a list (oar/lib/queue.py:23-27): maximal runs of consecutive
elements with the same key. -/
def groupby {α : Type} (key : α → Int) : List α → List (List α)
  | [] => []
  | x :: xs =>
    match groupby key xs with
    | [] => [[x]]
    | [] :: gs => [x] :: gs
    | (y :: g) :: gs => if key x = key y then (x :: y :: g) :: gs else [x] :: (y :: g) :: gs

/-- `get_queues_groupby_priority` (oar/lib/queue.py:17-27). `rows` is what the query
`order_by(Queue.priority.desc())` returned (the order of rows with equal priority is not specified by SQL). -/
def queuesGroupby (rows : List Queue) : List (List Queue) := groupby (·.priority) rows

/-- The names of queues given to the internal scheduler for each group (oar/kao/meta_sched.py:923-977 and
`call_internal_scheduler` 757-781): inactive queues are removed from each group. -/
def scheduledGroups (rows : List Queue) : List (List String) :=
  (queuesGroupby rows).map (fun g => (g.filter (·.active)).map (·.name))

/-- The columns of `jobs` read by the sorting of the waiting jobs. -/
structure WJob where
  id : Nat
  state : String
  queue : String
  reservation : String
  user : String
  project : String
  submission : Int
  deriving DecidableEq, Repr

/-- Insertion used by `pySort`. -/
def insertBy {α κ : Type} [LE κ] [DecidableRel (α := κ) (· ≤ ·)] (key : α → κ) (x : α) : List α → List α
  | [] => [x]
  | y :: l => if key x ≤ key y then x :: y :: l else y :: insertBy key x l

/-- Python's `sorted(l, key=key)`: a stable sort by increasing key (`sorted_spec` proves it is one). -/
def pySort {α κ : Type} [LE κ] [DecidableRel (α := κ) (· ≤ ·)] (key : α → κ) : List α → List α
  | [] => []
  | x :: l => insertBy key x (pySort key l)

/-- `get_waiting_jobs` (oar/lib/job_handling.py:117-137): jobs in state Waiting of the given queues which are not
advance reservations, by increasing id. -/
def waitingJobs (queues : List String) (jobs : List WJob) : List WJob :=
  pySort (·.id) (jobs.filter (fun j => decide (j.state = "Waiting" ∧ j.queue ∈ queues ∧ j.reservation = "None")))

/-- The settings of the fair-sharing. `projTargets` and `userTargets` are the dictionaries read by
`perl_hash_2_dict`; a project target which is not a number makes `float` raise. -/
structure KarmaConf where
  window : Int
  projTargets : List (String × Option Rat)
  userTargets : List (String × String)
  coefProj : Rat
  coefUser : Rat
  coefAsk : Rat

/-- Sum of the consumptions of the rows selected by `p`, `none` if there is none (SQL `group by`: no group). -/
def sumWhere (p : AKey → Bool) (t : Table) : Option Rat :=
  if (t.filter (fun r => p r.1)).isEmpty then none
  else some (((t.filter (fun r => p r.1)).map (fun r => (r.2 : Rat))).sum)

/-- `get_sum_accounting_window` (oar/kao/karma.py:21-40): total of a consumption type over the window, 1 if there is
no row. Strict upper bound. -/
def sumWindow (queues : List String) (ws we : Int) (ty : String) (t : Table) : Rat :=
  (sumWhere (fun k => decide (k.queue ∈ queues ∧ ws ≤ k.wstart ∧ k.wstop < we ∧ k.ctype = ty)) t).getD 1

/-- `get_sum_accounting_by_project` (oar/kao/karma.py:48-72), with the default 0 of `evaluate_jobs_karma`. -/
def sumProject (queues : List String) (ws we : Int) (ty p : String) (t : Table) : Rat :=
  (sumWhere (fun k => decide (k.queue ∈ queues ∧ ws ≤ k.wstart ∧ k.wstop < we ∧ k.ctype = ty ∧ k.project = p)) t).getD 0

/-- `get_sum_accounting_by_user` (oar/kao/karma.py:76-102), with the default 0 of `evaluate_jobs_karma`. The upper bound
is not strict here. -/
def sumUser (queues : List String) (ws we : Int) (ty u : String) (t : Table) : Rat :=
  (sumWhere (fun k => decide (k.queue ∈ queues ∧ ws ≤ k.wstart ∧ k.wstop ≤ we ∧ k.ctype = ty ∧ k.user = u)) t).getD 0

/-- `float(karma_proj_targets[job.project])`, 0 for a project without target (oar/kao/karma.py:163-166). -/
def projTarget (cf : KarmaConf) (p : String) : Option Rat :=
  match cf.projTargets.lookup p with
  | some x => x
  | none => some 0

/-- The formula of `evaluate_jobs_karma` (oar/kao/karma.py:177-186) for a user without target. -/
def karmaFormula (cf : KarmaConf) (projUsed userUsed userAsked sumUsed sumAsked target : Rat) : Rat :=
  cf.coefProj * (projUsed / sumUsed - target / 100) + cf.coefUser * (userUsed / sumUsed - 0 / 100) +
    cf.coefAsk * (userAsked / sumAsked - 0 / 100)

/-- `evaluate_jobs_karma` (oar/kao/karma.py:108-186) for one job. A user with a target makes
`karma_user_targets[job.user] / 100.0` divide a string: an exception (161-162). A null total is a division by zero. -/
def karma (cf : KarmaConf) (t : Table) (queues : List String) (now : Int) (j : WJob) : Option Rat :=
  if (cf.userTargets.lookup j.user).isSome then none
  else if sumWindow queues (now - cf.window) now "USED" t = 0 ∨ sumWindow queues (now - cf.window) now "ASKED" t = 0
    then none
  else (projTarget cf j.project).map (fun target =>
    karmaFormula cf (sumProject queues (now - cf.window) now "USED" j.project t)
      (sumUser queues (now - cf.window) now "USED" j.user t) (sumUser queues (now - cf.window) now "ASKED" j.user t)
      (sumWindow queues (now - cf.window) now "USED" t) (sumWindow queues (now - cf.window) now "ASKED" t) target)

/-- The settings of the multifactor priority (oar/kao/multifactor_priority.py:32-72). The weights of `work`, `size`,
`qos` and `nice` are 0 here: with a positive weight the code reads attributes that no job has
(`job.work`, `job.size`, `job.qos`, `job.nice`), see `priority`. -/
structure PrioConf where
  ageWeight : Rat
  ageCoef : Rat
  queueWeight : Rat
  queueCoefs : List (String × Rat)
  karmaWeight : Rat
  extraWeights : List Rat

/-- `evaluate_jobs_priority` (oar/kao/multifactor_priority.py:77-108) for one job whose karma is `k`. -/
def priority (pc : PrioConf) (now : Int) (k : Rat) (j : WJob) : Option Rat :=
  if pc.extraWeights.any (fun w => decide (0 < w)) then none
  else if 1 + k = 0 then none
  else some (pc.ageWeight * max 1 (pc.ageCoef * ((now - j.submission : Int) : Rat)) +
    (if 0 < pc.queueWeight then (match pc.queueCoefs.lookup j.queue with
      | some c => pc.queueWeight * c
      | none => 0) else 0) +
    pc.karmaWeight * (1 / (1 + k)))

/-- The policy chosen by JOB_PRIORITY (oar/kao/kamelot.py:42-75); the custom plug-in is not modelled. -/
inductive Policy where
  | fifo
  | fairshare
  | multifactor

/-- Evaluate a key for each job, `none` as soon as one evaluation raises. -/
def evalKeys (f : WJob → Option Rat) : List WJob → Option (List (Rat × WJob))
  | [] => some []
  | j :: l => match f j, evalKeys f l with
    | some k, some r => some ((k, j) :: r)
    | _, _ => none

/-- `jobs_sorting` (oar/kao/kamelot.py:42-75) with `karma_jobs_sorting` (oar/kao/karma.py:189-196) and
`multifactor_jobs_sorting` (oar/kao/multifactor_priority.py:113-121; `reverse=True` keeps the order of equal keys). -/
def jobsSorting (pol : Policy) (cf : KarmaConf) (pc : PrioConf) (t : Table) (queues : List String) (now : Int)
    (jobs : List WJob) : Option (List WJob) :=
  match pol with
  | .fifo => some jobs
  | .fairshare => (evalKeys (karma cf t queues now) jobs).map (fun l => (pySort (·.1) l).map (·.2))
  | .multifactor => (evalKeys (fun j => (karma cf t queues now j).bind (fun k => priority pc now k j)) jobs).map
      (fun l => (pySort (fun x => -x.1) l).map (·.2))

/-- The setting MAX_JOB_PER_QUEUES_GROUP_SCHEDULING_ROUND. -/
inductive CapSetting where
  | unset
  | notAnInteger
  | value (v : Int)

/-- `get_max_job_per_queues_group` (oar/kao/kamelot.py:24-39). -/
def maxJobs : CapSetting → Option Int
  | .unset => none
  | .notAnInteger => none
  | .value v => if 0 < v then some v else none

/-- The cap (oar/kao/kamelot.py:112-123 and 210-223). -/
def capJobs (c : CapSetting) (l : List WJob) : List WJob :=
  match maxJobs c with
  | none => l
  | some m => if m < l.length then l.take m.toNat else l

/-- The jobs given to the scheduling of a group of queues, in order (oar/kao/kamelot.py:87-134). -/
def consideredJobs (pol : Policy) (cf : KarmaConf) (pc : PrioConf) (c : CapSetting) (t : Table) (queues : List String)
    (now : Int) (jobs : List WJob) : Option (List WJob) :=
  (jobsSorting pol cf pc t queues now (waitingJobs queues jobs)).map (capJobs c)

/-- `re.split(",", …)` and `re.split("=>", …)` of `perl_hash_2_dict` on characters: split at each occurrence. -/
def splitComma : List Char → List (List Char)
  | [] => [[]]
  | c :: l => if c = ',' then [] :: splitComma l else
    match splitComma l with
    | [] => [[c]]
    | p :: ps => (c :: p) :: ps

/-- Split at the non overlapping occurrences of `=>`. -/
def splitArrow : List Char → List (List Char)
  | [] => [[]]
  | '=' :: '>' :: l => [] :: splitArrow l
  | c :: l =>
    match splitArrow l with
    | [] => [[c]]
    | p :: ps => (c :: p) :: ps

/-- `re.sub(r"{|}|\s", "", str)` (oar/kao/karma.py:14); `\s` restricted to the ASCII white space. -/
def stripHash (s : List Char) : List Char :=
  s.filter (fun c => !(c = '{' || c = '}' || c = ' ' || c = '\t' || c = '\n' || c = '\r' || c = '\x0b' || c = '\x0c'))

/-- `d[kv[0]] = kv[1]` (oar/kao/karma.py:15-18): the pairs in order, later ones win; `none` is the IndexError of a pair
without arrow. -/
def hashPairs : List (List Char) → Option (List (List Char × List Char))
  | [] => some []
  | p :: ps => match splitArrow p, hashPairs ps with
    | k :: v :: _, some r => some ((k, v) :: r)
    | _, _ => none

/-- `perl_hash_2_dict` (oar/kao/karma.py:11-18): the assignments made to the dictionary, in order. -/
def perlHash2Dict (s : List Char) : Option (List (List Char × List Char)) := hashPairs (splitComma (stripHash s))

end Oar.Queues
