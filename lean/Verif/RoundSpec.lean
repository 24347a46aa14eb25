import Verif.Round
import Verif.HierarchySpec
import Mathlib.Data.List.Forall2

/-!
# Specification vocabulary for the rounds of the meta-scheduler (C95)
-/

namespace Oar.Round.Spec

open Oar.Launch Oar.ResSet Oar.JobTypes Oar.Tools

/-- The job occupies its resources. -/
def Occupies (j : LJob) : Prop := j.state ∈ ["Running", "toLaunch", "Launching", "Finishing", "Suspended", "Resuming"]

instance (j : LJob) : Decidable (Occupies j) := by unfold Occupies; infer_instance

/-- The job holds the resource: a row of `assigned_resources` for its moldable. -/
def Holds (db : DB) (j : LJob) (r : Nat) : Prop := (j.mold, r) ∈ db.assigned

instance (db : DB) (j : LJob) (r : Nat) : Decidable (Holds db j r) := by unfold Holds; infer_instance

/-- No resource is held by two jobs at once. -/
def Exclusive (db : DB) : Prop :=
  ∀ a ∈ db.jobs, ∀ b ∈ db.jobs, a.id ≠ b.id → Occupies a → Occupies b → ∀ r, Holds db a r → ¬ Holds db b r

/-- The time given to a job beyond its walltime. -/
def extra (sec : Int) (j : LJob) : Int := sec + (if j.suspended then j.suspSum else 0)

/-- The job is best-effort. -/
def BestEffort (j : LJob) : Prop := ((tjob j).types.lookup (txt "besteffort")).isSome = true

/-- The tables are those of a running system: identifiers are unique, a job that occupies resources has one of its own moldables, the moldables of a waiting job have no assigned
resource. -/
structure Sound (db : DB) : Prop where
  jobs : (db.jobs.map (·.id)).Nodup
  molds : (db.molds.map (·.id)).Nodup
  own : ∀ j ∈ db.jobs, Occupies j → ∃ m ∈ db.molds, m.id = j.mold ∧ m.job = j.id
  fresh : ∀ j ∈ db.jobs, j.state = "Waiting" → ∀ m ∈ db.molds, m.job = j.id → ∀ r, (m.id, r) ∉ db.assigned

/-- The date is inside the life of each job that occupies resources; `sec` is the security time. A best-effort job may be late. -/
def OnTime (sec now : Int) (db : DB) : Prop :=
  ∀ j ∈ db.jobs, Occupies j → 0 ≤ j.start ∧ j.start ≤ now ∧ ∀ m ∈ db.molds, m.id = j.mold → 1 ≤ m.walltime + extra sec j ∧
    (¬ BestEffort j → now < j.start + (m.walltime + extra sec j))

/-- No advance reservation, no container, no job inside a container. -/
def Simple (db : DB) : Prop :=
  ∀ j ∈ db.jobs, j.reservation ≠ "Scheduled" ∧ (tjob j).types.lookup (txt "container") = none ∧ (tjob j).types.lookup (txt "inner") = none

/-- The jobs given to the scheduler are waiting jobs of the tables, with their moldables; they share no resource (neither timesharing nor allowed in a placeholder), are not
containers nor inside one; no job is given twice; no reservation to examine. -/
structure Given (gs : List Grp) (db : DB) : Prop where
  once : (gs.flatMap (fun g => g.waiting.map (·.id))).Nodup
  row : ∀ g ∈ gs, ∀ w ∈ g.waiting, ∃ j ∈ db.jobs, j.id = w.id ∧ j.state = "Waiting"
  molds : ∀ g ∈ gs, ∀ w ∈ g.waiting, ∀ m ∈ w.mlds, ∃ d ∈ db.molds, d.id = m.id ∧ d.job = w.id
  plain : ∀ g ∈ gs, ∀ w ∈ g.waiting, w.ts = false ∧ w.ph ≠ 2 ∧ w.resSet = none ∧ w.types.lookup "container" = none ∧ w.types.lookup "inner" = none
  noResv : ∀ g ∈ gs, ∀ q ∈ g.names, (g.resv.lookup q).getD [] = []

/-- The resources are read from the table; dates of availability are before the end of times; a suspended job gives nothing back. -/
def Numbered (s : RS) (db : DB) : Prop :=
  ∃ susp labels rs, (rs.map Res.id).Nodup ∧ build susp labels rs = some s ∧ (∀ r ∈ rs, r.upto < Kao.maxTime) ∧
    (susp = [] ∨ ∀ j ∈ db.jobs, j.state ≠ "Suspended")

/-- The situation of a round to which the theorem applies. -/
structure Regular (cf : Conf) (ctx : Kao.Ctx) (s : RS) (gs : List Grp) (now : Int) (db : DB) : Prop where
  sound : Sound db
  onTime : OnTime cf.sec now db
  simple : Simple db
  given : Given gs db
  numbered : Numbered s db
  noCalendar : ctx.cal = none
  date : 0 ≤ now ∧ now ≤ Kao.maxTime

/-- What the other programs do between two rounds: no job begins to occupy resources, none gets another moldable or a new resource. -/
def Between (db db' : DB) : Prop :=
  ∀ j' ∈ db'.jobs, Occupies j' → ∃ j ∈ db.jobs, j.id = j'.id ∧ Occupies j ∧ ∀ r, Holds db' j' r → Holds db j r

/-- The histories: from tables in which no job occupies resources, regular rounds and changes by the other programs, in any order and number. -/
inductive History : DB → Prop
  | start (db : DB) (h : ∀ j ∈ db.jobs, ¬ Occupies j) : History db
  | other (db db' : DB) (h : History db) (hb : Between db db') : History db'
  | round (cf : Conf) (ctx : Kao.Ctx) (s : RS) (ord : List Row → List Row) (gs : List Grp) (now : Int) (db db' : DB) (code : Int) (h : History db)
      (hord : ∀ l, (ord l).Perm l) (hr : Regular cf ctx s gs now db) (hrun : Round.round cf ctx s ord gs now db = some (db', code)) : History db'

/-! ## What a job asked for (C96) -/

/-- `B` are the blocks of a level of the hierarchy: the usable resources with the same value in the column, one block for each value. -/
def IsLevel (rs : List Res) (label : String) (B : List ProcSet) : Prop :=
  B.Nodup ∧ ∀ S, S ∈ B ↔ ∃ (k : Nat) (r : Res), rs[k]? = some r ∧ r.usable = true ∧ ∀ k', k' ∈ S ↔ ∃ r' : Res, rs[k']? = some r' ∧ r'.usable = true ∧ r'.value label = r.value label

/-- The resources answer a group of a request (`{properties}/switch=2/node=3`): they have the properties and, inside the blocks of the levels asked for, the counts asked for. (With a
single level, a count that is not positive is a keyword: ALL, BEST, HALF; see C06.) -/
def AnswersGroup (rs : List Res) (g : Hierarchy.Group) (part : ProcSet) : Prop :=
  part ≠ ∅ ∧ part ⊆ g.constraints ∧ ∃ top lower, List.Forall₂ (fun l B => IsLevel rs l.1 B) g.levels (top :: lower) ∧
    ((lower = [] → ∀ n ∈ g.levels.map (·.2), 0 < n) → Hierarchy.Spec.Granted g.constraints lower (g.levels.map (·.2)) top part)

/-- The resources answer a request: one part for each group. -/
def Answers (rs : List Res) (gs : List Hierarchy.Group) (R : ProcSet) : Prop :=
  ∃ parts : List ProcSet, List.Forall₂ (AnswersGroup rs) gs parts ∧ R = bigUnion parts

/-! ## When a waiting job starts (C97) -/

/-- The request can be read: each group has levels, which are levels of the hierarchy. -/
def Readable (labels : List String) (groups : List Hierarchy.Group) : Prop := ∀ g ∈ groups, g.levels ≠ [] ∧ ∀ l ∈ g.levels, l.1 ∈ labels

/-- With a single level the count is a number, not a keyword. -/
def Counts (groups : List Hierarchy.Group) : Prop := ∀ g ∈ groups, g.levels.length = 1 → ∀ l ∈ g.levels, 0 < l.2

/-- Requests with the same key in the cache are the same. -/
def SameKey (W : List Kao.Job) : Prop :=
  ∀ w ∈ W, ∀ w' ∈ W, ∀ m ∈ w.mlds, ∀ m' ∈ w'.mlds, ∀ k, w.keyCache.lookup m.id = some k → w'.keyCache.lookup m'.id = some k → m.walltime = m'.walltime ∧ m.groups = m'.groups

/-- The job ends before the date. -/
def EndsBefore (sec : Int) (db : DB) (j : LJob) (t : Int) : Prop := ∀ d ∈ db.molds, d.id = j.mold → j.start + (d.walltime + extra sec j) < t

/-- In the Gantt the job, if it is there, is not on one of the rows of `R` during the `W` seconds from `t`. -/
def NotOn (rs : List Res) (R : ProcSet) (t W : Int) (db : DB) (w : Kao.Job) : Prop :=
  ∀ m ∈ w.mlds, ∀ t', (m.id, t') ∈ db.preds → ∀ k ∈ R, ∀ row : Res, rs[k]? = some row → (m.id, row.id) ∈ db.gres → t + W ≤ t' ∨ t' + m.walltime < t

/-- The resources held by the jobs are usable. -/
def HeldUsable (rs : List Res) (db : DB) : Prop := ∀ j ∈ db.jobs, Occupies j → ∀ i, Holds db j i → ∃ row ∈ rs, row.usable = true ∧ row.id = i

/-! ## When a round ends without exception (C98) -/

/-- The scheduler can read the waiting jobs: a key in the cache for each alternative or none at all, positive walltimes, known levels, and a keyword (ALL, BEST, HALF) only when there
is a usable resource. -/
def Legible (labels : List String) (rs : List Res) (gs : List Grp) : Prop :=
  ∀ g ∈ gs, ∀ w ∈ g.waiting, (w.keyCache = [] ∨ ∀ m ∈ w.mlds, (w.keyCache.lookup m.id).isSome = true) ∧
    ∀ m ∈ w.mlds, 0 < m.walltime ∧ Readable labels m.groups ∧ ((∃ r ∈ rs, r.usable = true) ∨ Counts m.groups)

/-- The types of the jobs that occupy resources can be read; no best-effort job among them has a checkpoint. -/
def Tame (db : DB) : Prop :=
  ∀ j ∈ db.jobs, Occupies j → (jobTypes j.types Info.empty).isSome = true ∧ (BestEffort j → j.checkpoint = 0)

/-- Treated after the groups of queues `pre`, the group `g` has waiting jobs and none of them gets a date in the Gantt. -/
def Stuck (cf : Conf) (ctx : Kao.Ctx) (s : RS) (now : Int) (db : DB) (pre : List Grp) (g : Grp) : Prop :=
  g.waiting ≠ [] ∧ ∃ db1 ctx1 sets sched js db2 ctx2 sets2, Round.init ctx s cf.sec now db = some (db1, ctx1, sets, sched, js) ∧
    groups s cf.sec cf.timeout now js (pre ++ [g]) (db1, ctx1, sets) = some (db2, ctx2, sets2) ∧ ∀ w ∈ g.waiting, ∀ m ∈ w.mlds, ∀ t, (m.id, t) ∉ db2.preds

/-- At most one group of queues is stuck. -/
def AtMostOneStuck (cf : Conf) (ctx : Kao.Ctx) (s : RS) (gs : List Grp) (now : Int) (db : DB) : Prop :=
  ∀ pre g mid g' post, gs = pre ++ g :: mid ++ g' :: post → Stuck cf ctx s now db pre g → ¬ Stuck cf ctx s now db (pre ++ g :: mid) g'

/-! ## The promise made to the first waiting job (C99) -/

/-- The date at which a job that occupies resources is expected to free them. -/
def LeavesBy (sec : Int) (db : DB) (j : LJob) (t : Int) : Prop := ∀ d ∈ db.molds, d.id = j.mold → j.start + (d.walltime + extra sec j) ≤ t

/-- What the other programs do between two rounds: no job begins to occupy resources, none gets a new resource, more time or other types. Jobs may end, be submitted, be removed. -/
def Calm (sec : Int) (db db' : DB) : Prop :=
  ∀ j' ∈ db'.jobs, Occupies j' → ∃ j ∈ db.jobs, j.id = j'.id ∧ Occupies j ∧ j.types = j'.types ∧ (∀ r, Holds db' j' r → Holds db j r) ∧
    ∀ t, LeavesBy sec db j t → LeavesBy sec db' j' t

/-- The scheduler counts the security time in the durations of the waiting jobs; a waiting job is not marked as suspended. -/
def Secured (sec : Int) (gs : List Grp) (db : DB) : Prop :=
  (∀ g ∈ gs, ∀ w ∈ g.waiting, ∀ m ∈ w.mlds, ∀ d ∈ db.molds, d.id = m.id → d.walltime + sec ≤ m.walltime) ∧ ∀ j ∈ db.jobs, j.state = "Waiting" → j.suspended = false

/-- The job is launched by the round that ends with these tables. -/
def Launched (w : Kao.Job) (now : Int) (db' : DB) : Prop := ∃ j ∈ db'.jobs, j.id = w.id ∧ j.state = "toLaunch" ∧ j.start = now

/-- The types of the jobs that occupy resources can be read; none is best-effort. -/
def NoBestEffort (db : DB) : Prop := ∀ j ∈ db.jobs, Occupies j → (jobTypes j.types Info.empty).isSome = true ∧ ¬ BestEffort j

/-- A regular round that can read its jobs, in which `w` is the first waiting job of the first group of queues. -/
structure HeadRound (cf : Conf) (ctx : Kao.Ctx) (labels : List String) (rs : List Res) (s : RS) (w : Kao.Job) (gs : List Grp) (now : Int) (db : DB) : Prop where
  regular : Regular cf ctx s gs now db
  first : ∃ names rest resv gs', gs = ⟨names, w :: rest, resv⟩ :: gs' ∧ names ≠ ["besteffort"]
  secured : Secured cf.sec gs db
  held : HeldUsable rs db
  read : ∀ g ∈ gs, ∀ w' ∈ g.waiting, ∀ m' ∈ w'.mlds, Readable labels m'.groups
  key : SameKey (gs.flatMap (·.waiting))

/-- Every dependency of the job is over: it ended in error, or it is terminated with the exit code 0 or without exit code. -/
def Settled (w : Kao.Job) : Prop := ∀ d ∈ w.deps, d.state = "Error" ∨ (d.state = "Terminated" ∧ (d.exitCode = some 0 ∨ d.exitCode = none))

/-- Every dependency of the job `w` lets it start at the date `t`: it is over, or it is one of the waiting jobs `a` placed before it in the same group and the Gantt has it end at `t` at
the latest. -/
def Clears (a : List Kao.Job) (db : DB) (t : Int) (w : Kao.Job) : Prop :=
  ∀ d ∈ w.deps, d.state = "Error" ∨ (d.state = "Terminated" ∧ (d.exitCode = some 0 ∨ d.exitCode = none)) ∨
    (d.state = "Waiting" ∧ ∃ w' ∈ a, w'.id = d.jid ∧ w'.walltime = none ∧ ∀ m ∈ w'.mlds, ∀ t', (m.id, t') ∈ db.preds → t' + m.walltime ≤ t)

instance (w : Kao.Job) : Decidable (Settled w) := by unfold Settled; infer_instance

/-- The waiting job can be placed alone: distinct alternatives, counts instead of keywords, positive durations, no dependency that is still awaited, no quotas. -/
structure Plain (ctx : Kao.Ctx) (w : Kao.Job) : Prop where
  ids : (w.mlds.map (·.id)).Nodup
  deps : Settled w
  quotas : ctx.env.enabled = false ∨ w.noQuotas = true
  alts : ∀ m ∈ w.mlds, 0 < m.walltime ∧ m.groups ≠ [] ∧ Counts m.groups

end Oar.Round.Spec
