import Mathlib.Data.Finset.Basic

/-!
# Model of `oar/lib/walltime.py` (requests) and `oar/kao/walltime_change.py` (processing)

Dates and durations are integers. The parsing of configuration values (`get_conf`, which evaluates a Python literal and
may take a fraction of the walltime) is represented by the values it returns.
-/

namespace Oar.Walltime

/-- A row of `walltime_change` (oar/lib/models.py:447-465); `force` and `delay` stand for "YES". -/
structure Wtc where
  pending : Int
  force : Bool
  delay : Bool
  granted : Int
  grantedForce : Int
  grantedDelay : Int
  deriving DecidableEq, Repr

/-- The job concerned, as read by `request` (oar/lib/walltime.py:159-172, 253-270): `walltime` is the walltime of its
assigned moldable, `suspended` the sum of its suspensions. -/
structure WJob where
  user : String
  state : String
  start : Int
  walltime : Int
  suspended : Int
  container : Bool
  deriving DecidableEq, Repr

/-- The configuration: `WALLTIME_CHANGE_ENABLED`, and what `get_conf` returns for the queue of the job for
`WALLTIME_MAX_INCREASE` (it may depend on the walltime; `-1`: no limit), `WALLTIME_MIN_FOR_CHANGE`, and the users of
`WALLTIME_ALLOWED_USERS_TO_FORCE` / `..._DELAY_JOBS` (`none`: "*"). -/
structure Conf where
  enabled : Option String
  maxIncrease : Int → Int
  minForChange : Int
  forceUsers : Option (List String)
  delayUsers : Option (List String)

/-- The parsed request: sign `-1` / `1` for a relative change, `0` for a new walltime (oar/lib/walltime.py:190-206). -/
structure Asked where
  sign : Int
  seconds : Int
  deriving DecidableEq, Repr

/-- The codes returned (oar/lib/walltime.py). -/
inductive Answer
  | disabled      -- 5, 405
  | notFound      -- 4, 404
  | forbidden     -- 3, 403
  | badRequest    -- 1, 400
  | accepted      -- 0, 202
  deriving DecidableEq, Repr

/-- The change in seconds relative to the current walltime (oar/lib/walltime.py:202-206). -/
def relative (a : Asked) (walltime : Int) : Int :=
  if a.sign < 0 then - a.seconds else if 0 < a.sign then a.seconds else a.seconds - walltime

/-- `user not in (["root", "oar"] + search)` (oar/lib/walltime.py:219, 234). -/
def permitted (users : Option (List String)) (user : String) : Bool :=
  match users with
  | none => true
  | some l => decide (user ∈ "root" :: "oar" :: l)

/-- Models `update_walltime_change_request` (oar/lib/walltime.py:360-388): a missing value is replaced by "NO" or 0. -/
def updateRow (pending : Int) (force delay : Bool) (granted grantedForce grantedDelay : Option Int) : Wtc :=
  ⟨pending, force, delay, granted.getD 0, grantedForce.getD 0, grantedDelay.getD 0⟩

/-- The change asked, once clamped so that the job does not end before now (oar/lib/walltime.py:268-270). -/
def clamp (job : WJob) (now change : Int) : Int :=
  let remaining := job.start + job.walltime + job.suspended - now
  if remaining < - change then - remaining else change

/-- Models `request` (oar/lib/walltime.py:152-347); `asked = none` is a syntax error, the existing row of the job is `row`.
Returns the answer and the row of the job afterwards. The user is never anonymous (empty user: l.216-217). -/
def request (conf : Conf) (job : Option WJob) (user : String) (asked : Option Asked) (force delay : Bool) (now : Int)
    (row : Option Wtc) : Answer × Option Wtc :=
  if conf.enabled ≠ some "YES" then (.disabled, row)
  else
    match job with
    | none => (.notFound, row)
    | some job =>
      if job.user ≠ user ∧ user ≠ "root" ∧ user ≠ "oar" then (.forbidden, row)
      else if job.state ≠ "Running" then (.forbidden, row)
      else
        match asked with
        | none => (.badRequest, row)
        | some a =>
          if force ∧ permitted conf.forceUsers user = false then (.forbidden, row)
          else if delay ∧ permitted conf.delayUsers user = false then (.forbidden, row)
          else if job.walltime < conf.minForChange then (.forbidden, row)
          else if job.container ∧ relative a job.walltime < 0 then (.forbidden, row)
          else
            let change := clamp job now (relative a job.walltime)
            let maxInc := conf.maxIncrease job.walltime
            match row with
            | some r =>
              if maxInc ≠ -1 ∧ r.granted + change > maxInc ∧ user ≠ "root" ∧ user ≠ "oar" then (.forbidden, row)
              else (.accepted, some (updateRow change (force && decide (change > 0)) (delay && decide (change > 0)) none none none))
            | none =>
              if maxInc ≠ -1 ∧ change > maxInc ∧ user ≠ "root" ∧ user ≠ "oar" then (.forbidden, row)
              else (.accepted, some ⟨change, force && decide (change > 0), delay && decide (change > 0), 0, 0, 0⟩)

/-- A predicted job of the gantt: its start date, its resources, whether it is an advance reservation and whether it is
besteffort (columns used by oar/lib/job_handling.py:2829-2854). -/
structure Pred where
  start : Int
  rids : Finset Nat
  reservation : Bool
  besteffort : Bool

/-- The predictions that matter (the WHERE clause of oar/lib/job_handling.py:2829-2854, without its dates), for a job that
is neither timesharing nor allowed in a placeholder: on a common resource, not besteffort, only the advance reservations
if the next jobs may be delayed. -/
def Pred.matters (p : Pred) (rids : Finset Nat) (delayNext : Bool) : Prop :=
  (delayNext = true → p.reservation = true) ∧ p.besteffort = false ∧ ¬ Disjoint p.rids rids

instance (p : Pred) (rids : Finset Nat) (d : Bool) : Decidable (p.matters rids d) := by
  unfold Pred.matters; infer_instance

/-- The loop of `get_possible_job_end_time_in_interval` (oar/lib/job_handling.py:2857-2859). -/
def endLoop (sec : Int) : List Int → Int → Int
  | [], first => first
  | s :: ss, first => endLoop sec ss (if first = 0 ∨ first > s - sec then s - sec - 1 else first)

/-- Models `get_possible_job_end_time_in_interval` (oar/lib/job_handling.py:2781-2861). -/
def possibleEnd (from_ to_ : Int) (rids : Finset Nat) (sec : Int) (delayNext : Bool) (gantt : List Pred) : Int :=
  endLoop sec ((gantt.filter (fun p => decide (p.matters rids delayNext) && decide (p.start > from_) &&
    decide (p.start ≤ to_ + sec))).map Pred.start) to_

/-- What the processing reads (oar/kao/walltime_change.py:19-34): date, suspended time of the job, `apply_time`,
`increment`, end of the container of an inner job (when it is found running), security time, gantt. -/
structure Round where
  now : Int
  suspended : Int
  applyTime : Int
  increment : Int
  containerEnd : Option Int
  sec : Int
  gantt : List Pred

/-- A running job and its request. -/
structure Proc where
  start : Int
  walltime : Int
  rids : Finset Nat
  row : Wtc

/-- The end of the search interval for an increase (oar/kao/walltime_change.py:57-74). -/
def searchTo (r : Round) (from_ fit : Int) : Int :=
  match r.containerEnd with
  | none => from_ + fit
  | some e => if e < from_ + fit then e else from_ + fit

/-- The seconds granted by a round for a positive request, `none` when it is postponed
(oar/kao/walltime_change.py:25-112). -/
def fitUp (r : Round) (p : Proc) : Option Int :=
  let from_ := p.start + p.walltime + r.suspended
  let fit := if p.row.force = false ∧ r.increment > 0 ∧ r.increment < p.row.pending then r.increment else p.row.pending
  if p.row.force = false ∧ r.applyTime > 0 ∧ from_ - r.applyTime - r.now > 0 then none
  else
    let g := possibleEnd from_ (searchTo r from_ fit) p.rids r.sec p.row.delay r.gantt - from_
    if g ≤ 0 then none else some g

/-- The seconds granted for a negative request (oar/kao/walltime_change.py:114-117). -/
def fitDown (r : Round) (p : Proc) : Int :=
  let remaining := p.start + p.walltime + r.suspended - r.now
  if remaining < - p.row.pending then - remaining else p.row.pending

/-- Models one iteration of `process_walltime_change_requests` (oar/kao/walltime_change.py:19-152) for a running job
with a request; nothing changes for a null request (oar/lib/job_handling.py:2737). -/
def processOne (r : Round) (p : Proc) : Proc :=
  let apply (fit : Int) : Proc :=
    { p with
      walltime := p.walltime + fit
      row := updateRow (p.row.pending - fit) false false (some (p.row.granted + fit))
        (if p.row.force ∧ fit > 0 then some (p.row.grantedForce + fit) else none)
        (if p.row.delay ∧ fit > 0 then some (p.row.grantedDelay + fit) else some 0) }
  if p.row.pending = 0 then p
  else if p.row.pending > 0 then
    match fitUp r p with
    | none => p
    | some fit => apply fit
  else apply (fitDown r p)

/-- Whether the metascheduler processes the requests (oar/kao/meta_sched.py:872-875). -/
def processingEnabled (conf : Conf) : Bool := conf.enabled == some "yes"

end Oar.Walltime
