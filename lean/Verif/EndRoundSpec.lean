import Verif.EndRound
import Verif.JobsEvents

/-!
# C103: specification of the end of a round
-/

namespace Oar.EndRound

open Oar.Jobs Oar.Tools

/-- The column `info_type` of the job is "host:port". -/
def HasAddress (env : Env) (i : Nat) (a p : List Char) : Prop := env.info i = some (a ++ ':' :: p) ∧ ':' ∉ a ∧ ':' ∉ p

/-- The job has a client, with the number of a port. -/
def HasClient (env : Env) (i : Nat) : Prop := ∃ a p n, HasAddress env i a p ∧ pyInt p = some n ∧ 0 ≤ n ∧ n ≤ 65535

/-- The client of the job waits for an answer: an interactive job or an advance reservation. -/
def Waits (j : JobRow) : Prop := j.jtype = "INTERACTIVE" ∨ (j.jtype = "PASSIVE" ∧ j.reservation = "Scheduled")

/-- The job is interactive, waits, and has a date in the Gantt. -/
def Predicted (env : Env) (j : JobRow) : Prop := j.state = "Waiting" ∧ j.jtype = "INTERACTIVE" ∧ j.reservation = "None" ∧ j.id ∈ env.planned

/-- The states of the request of `get_jobs_on_resuming_job_resources`, as it is written. -/
def Busy (s : String) : Prop := s = "toLaunch" ∨ s = "toError" ∨ s = "toAckReservation" ∨ s = "Launching" ∨ s = "Running " ∨ s = "Finishing"

/-- The job has resources. -/
def HasResources (env : Env) (j : JobRow) : Prop := ∃ r, (j.assigned, r) ∈ env.assigned

/-- The script of the site is run for the job to resume. -/
def RunsScript (env : Env) (db : DB) (j : JobRow) (f : Nat → Option Int) : Prop :=
  j.state = "Resuming" ∧ (∀ k ∈ db.jobs, k.id ≠ j.id → ¬ Busy k.state) ∧ HasResources env j ∧ "noop" ∉ j.types ∧ env.script = some f

/-- The deletion of the job was asked. -/
def Fragged (db : DB) (i : Nat) : Prop := ∃ f ∈ db.frags, f.jid = i

/-- The ids of the jobs are unique. -/
def Unique (db : DB) : Prop := (db.jobs.map (·.id)).Nodup

/-- What the round must do of the state of a job. -/
def answered : String → String
  | "toError" => "Error"
  | "toAckReservation" => "Waiting"
  | s => s

/-- No exception is raised. -/
def Completes (env : Env) (db : DB) : Prop :=
  (∀ j ∈ db.jobs, j.state = "Resuming" → (∃ k ∈ db.jobs, HasResources env j ∧ k.id ≠ j.id ∧ Busy k.state) ∨
    (HasResources env j ∧ "noop" ∉ j.types ∧ env.script ≠ none)) ∧
  (∀ j ∈ db.jobs, Predicted env j → HasClient env j.id ∧ env.net j.id .prediction ≠ .cut) ∧
  (∀ j ∈ db.jobs, j.state = "toError" → (∃ a p, HasAddress env j.id a p) ∧
    (Waits j → HasClient env j.id ∧ env.net j.id .text ≠ .cut ∧ env.net j.id .badJob ≠ .cut)) ∧
  (∀ j ∈ db.jobs, j.state = "toAckReservation" → HasClient env j.id ∧ env.net j.id .goodReservation = .received)

/-- The messages received and the states at any point of the end of the round. -/
structure Fair (env : Env) (db : DB) (st : St) : Prop where
  states : ∀ i, st.db.stateOf i = db.stateOf i ∨ (db.stateOf i = some "toError" ∧ st.db.stateOf i = some "Error") ∨
    (db.stateOf i = some "toAckReservation" ∧ st.db.stateOf i = some "Waiting" ∧ (i, Msg.goodReservation) ∈ st.told)
  good : ∀ i, (i, Msg.goodReservation) ∈ st.told → db.stateOf i = some "toAckReservation" ∧ st.db.stateOf i = some "Waiting" ∧ HasClient env i
  bad : ∀ i, (i, Msg.badJob) ∈ st.told → db.stateOf i = some "toError" ∧ st.db.stateOf i = some "Error" ∧ HasClient env i
  text : ∀ i, (i, Msg.text) ∈ st.told → db.stateOf i = some "toError" ∧ HasClient env i
  prediction : ∀ i, (i, Msg.prediction) ∈ st.told → ∃ j ∈ db.jobs, j.id = i ∧ Predicted env j ∧ HasClient env i
  asked : ∀ i ∈ st.asked, i ∉ env.treated ∧ ∃ j ∈ db.jobs, j.id = i ∧ j.state = "toLaunch"

/-- The message is for the client of this job. -/
def Due (env : Env) (j : JobRow) : Msg → Prop
  | .prediction => Predicted env j
  | .goodReservation => j.state = "toAckReservation"
  | .text => j.state = "toError" ∧ Waits j
  | .badJob => j.state = "toError" ∧ Waits j

/-- All the answers of a round without exception. -/
structure Answers (env : Env) (code : Int) (db : DB) (st : St) : Prop where
  states : ∀ i, st.db.stateOf i = (db.stateOf i).map answered
  told : ∀ i m, (i, m) ∈ st.told ↔ env.net i m = .received ∧ ∃ j ∈ db.jobs, j.id = i ∧ Due env j m
  frags : ∀ i, Fragged st.db i ↔ Fragged db i ∨ ∃ j ∈ db.jobs, j.id = i ∧
    ((Predicted env j ∧ env.net i .prediction = .refused) ∨ ∃ f, RunsScript env db j f ∧ f i ≠ some 0)
  asked : st.asked = (db.jobs.filter (fun j => j.state == "toLaunch" && !env.treated.contains j.id && env.commander j.id)).map (·.id)
  kept : code ≠ 0 → st.code = code
  again : code = 0 → (∃ j ∈ db.jobs, j.state = "toAckReservation" ∧ j.start ≤ env.now + 1) → st.code = 1
  calm : code = 0 → (¬ ∃ j ∈ db.jobs, j.state = "toAckReservation" ∧ j.start ≤ env.now + 1) → st.code = 0

end Oar.EndRound
