import Verif.NodeChange

/-!
# Specification of the histories of jobs
-/

namespace Oar.Jobs

/-- The intervals `l` of a job are consecutive, in chronological order, only the last one is open, it carries the current
state `cur` and began at `t` or before. -/
def Timeline (cur : String) (t : Int) : List LogRow → Prop
  | [] => False
  | [r] => r.stop = 0 ∧ r.state = cur ∧ 0 < r.start ∧ r.start ≤ t
  | r :: r' :: rest => r.stop = r'.start ∧ 0 < r.start ∧ r.start ≤ r.stop ∧ r.state ≠ r'.state ∧ Timeline cur t (r' :: rest)

/-- The intervals of job `jid`. -/
def DB.logOf (db : DB) (jid : Nat) : List LogRow := db.log.filter (fun r => r.jid == jid)

/-- The states from which a job does not come back. -/
def Ended (st : String) : Prop := st = "Terminated" ∨ st = "Error"

/-- The states of a job (oar/lib/models.py, column `state`). -/
def allStates : List String :=
  ["Waiting", "Hold", "toLaunch", "toError", "toAckReservation", "Launching", "Running", "Suspended", "Resuming", "Finishing",
   "Terminated", "Error"]

/-- One action of a part of the system at date `now`. Any module may ask any change of state, except to take a Finishing
job back; the other columns of a job (dates, message, chosen moldable) may be written at any time, and any event may be
registered. -/
inductive Step (now : Int) : DB → DB → Prop
  | submit (db : DB) (j : JobRow) (hid : ∀ k ∈ db.jobs, k.id < j.id) (hres : j.resubmit = 0)
      (hst : j.state ∈ allStates) :
      Step now db (submit db now j)
  | setState (db : DB) (jid : Nat) (st : String) (hst : st ∈ allStates)
      (h : ∀ j ∈ db.jobs, j.id = jid → j.state = "Finishing" → Ended st ∨ st = "Finishing") : Step now db (setJobState db now jid st)
  | columns (db : DB) (jid : Nat) (f : JobRow → JobRow)
      (hf : ∀ j, (f j).id = j.id ∧ (f j).state = j.state ∧ (f j).resubmit = j.resubmit) : Step now db (db.updJob jid f)
  | frag (db : DB) (jid : Nat) (user : String) : Step now db (fragJob db now jid user).2
  | hold (db : DB) (allowed : Bool) (jid : Nat) (running : Bool) (user : String) :
      Step now db (holdJob db allowed jid running user).2
  | resume (db : DB) (allowed : Bool) (jid : Nat) (user : String) : Step now db (resumeJob db allowed jid user).2
  | checkpoint (db : DB) (jid : Nat) (signal : Option String) (user : String) :
      Step now db (askCheckpoint db jid signal user).2
  | leon (db : DB) (w : World) : Step now db (leonRun w now db)
  | exterminate (db : DB) (w : World) (jid : Nat) : Step now db (leonExterminate w db jid)
  | sarko (db : DB) (w : World) (soft wall : Int) : Step now db (sarkoRun w soft wall now db)
  | jobEnd (db : DB) (keyClash : Bool) (extra : List (String × List String)) (jid : Nat) (exit : Option Int) (error : Int) :
      Step now db (checkEnd db now keyClash extra jid exit error)
  | event (db : DB) (type : String) (jid : Nat) (hosts : List String) : Step now db (addEventHosts db type jid hosts)
  | events (db db' : DB) (env : Env) (hs : List (String × Bool)) (hnow : env.now = now) (h : ncsEvents env db = some (db', hs)) :
      Step now db db'

/-- The databases reachable from an empty one, the clock never going back; `History t db`: the last action was at `t`. -/
inductive History : Int → DB → Prop
  | start (t : Int) (h : 0 < t) : History t ⟨[], [], [], [], []⟩
  | step (t now : Int) (db db' : DB) (h : History t db) (hle : t ≤ now) (hs : Step now db db') : History now db'

end Oar.Jobs
