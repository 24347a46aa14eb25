import Verif.Energy

/-!
# Model of the dates of the last jobs

The jobs and the resources as the energy saving sees them, along a history: launchings and ends of jobs (`oar/lib/job_handling.py`), beginnings of rounds (`oar/kao/meta_sched.py`),
changes of the states of the resources. Each change of the database is one event; between two events, any other one may happen. A job is known by the alternative it was placed with.
-/

namespace Oar.EnergyHist

open Oar.Energy

/-- Where a job is: not started; in one of the states Running, toLaunch, Launching, Finishing, Suspended, Resuming; in the state toError; its end was recorded at a date, with or without
the dates of its resources. -/
inductive Phase where
  | waiting
  | active
  | toError
  | over (date : Int)
  | lost (date : Int)
  deriving DecidableEq

/-- The database, the clock and the date of the current round. -/
structure State where
  clock : Int
  now : Int
  res : List Res
  phase : Nat → Phase
  start : Nat → Int
  assigned : List (Nat × Nat)
  pred : List (Nat × Int)
  gres : List (Nat × Nat)
  wakes : List (String × Int)
  waiting : List (Nat × Int)
  /-- The resources alive when the round began: those of its platform. -/
  alive : List Nat

/-- What happens. -/
inductive Event where
  | tick (d : Nat)
  /-- A round begins; the jobs it plans and their resources. -/
  | beginRound (plan : List (Nat × Int)) (planRes : List (Nat × Nat))
  | launch (m : Nat)
  /-- The only jobs put in the state toError are reservations that cannot be placed (oar/kao/meta_sched.py:390, 433, 447). -/
  | fail (m : Nat)
  | finish (m : Nat)
  /-- The server stops between the two commits of an end. -/
  | cut (m : Nat)
  | change (id : Nat) (state : String) (upto : Int)
  | wake (node : String)

def set {α} (f : Nat → α) (m : Nat) (a : α) : Nat → α := fun i => if i = m then a else f i

/-- Models `gantt_init_with_running_jobs` (oar/kao/meta_sched.py:106-130) with `get_jobs_in_multiple_states` (oar/lib/job_handling.py:1252-1290): the tables contain the active jobs on their
resources of the platform, and what the round plans. The resources that are not in the platform are not written at their place (see C97); `planRes` may have any row. -/
def beginRound (s : State) (plan : List (Nat × Int)) (planRes : List (Nat × Nat)) : State :=
  let alive := (s.res.filter (fun r => r.state == "Alive")).map (·.id)
  let mine := s.assigned.filter (fun a => s.phase a.1 == .active)
  { s with now := s.clock, alive := alive, pred := mine.map (fun a => (a.1, s.start a.1)) ++ plan, gres := mine.filter (fun a => alive.contains a.2) ++ planRes }

/-- Models `prepare_job_to_be_launched` (oar/kao/meta_sched.py:231-255) for a job of `get_gantt_jobs_to_launch` (oar/lib/job_handling.py:559-597). -/
def launch (s : State) (m : Nat) : State :=
  if s.phase m = .waiting ∧ s.pred.any (fun p => p.1 == m && decide (p.2 ≤ s.now)) then
    { s with phase := set s.phase m .active, start := set s.start m s.now, assigned := s.assigned ++ s.gres.filter (fun a => a.1 == m) }
  else s

/-- Models `update_scheduler_last_job_date` (oar/lib/job_handling.py:1183-1204). -/
def lastDate (asg : List (Nat × Nat)) (m : Nat) (date : Int) (r : Res) : Res := if asg.contains (m, r.id) then { r with lastJob := date } else r

/-- A job that is not over. -/
def live (p : Phase) : Bool := p == .waiting || p == .active || p == .toError

/-- Models the end of a job by `set_job_state` (oar/lib/job_handling.py:1693-1770) as far as the energy saving is concerned. -/
def finish (s : State) (m : Nat) : State :=
  if live (s.phase m) then { s with phase := set s.phase m (.over s.clock), res := s.res.map (lastDate s.assigned m s.clock) } else s

def step (s : State) : Event → State
  | .tick d => { s with clock := s.clock + d }
  | .beginRound plan planRes => beginRound s plan planRes
  | .launch m => launch s m
  | .fail m => if s.phase m = .waiting then { s with phase := set s.phase m .toError } else s
  | .finish m => finish s m
  | .cut m => if live (s.phase m) then { s with phase := set s.phase m (.lost s.clock) } else s
  | .change id st up => { s with res := s.res.map (fun r => if r.id = id then { r with state := st, upto := up } else r) }
  | .wake n => { s with wakes := s.wakes ++ [(n, s.clock)] }

def run (s : State) (h : List Event) : State := h.foldl step s

/-- The tables that `nodes_energy_saving` reads (oar/kao/meta_sched.py:785-840). -/
def tables (s : State) : Tables := ⟨s.res, s.pred, s.gres, s.wakes, s.waiting⟩

/-- The nodes halted at the end of the round. -/
def halted (c : Cfg) (s : State) : List String := toHalt c (tables s) s.now

/-! ## Specification -/

/-- The beginning: no job was started. -/
def Initial (s : State) : Prop := (∀ m, s.phase m = .waiting) ∧ s.assigned = [] ∧ s.pred = [] ∧ s.gres = [] ∧ s.alive = [] ∧ s.now ≤ s.clock

/-- A job was placed on a resource. -/
def On (s : State) (m : Nat) (r : Res) : Prop := (m, r.id) ∈ s.assigned

end Oar.EnergyHist
