import Verif.ApiJobs
import Verif.CliProps

/-!
# C104: specification of the requests of the API that act on the jobs
-/

namespace Oar.ApiJobs

open Oar.Jobs Oar.Cli Oar.Tools

/-- `db'` is `db` with new deletion requests and new events, all of them for jobs of `S`. -/
def Adds (S : Nat → Prop) (db db' : DB) : Prop :=
  db'.jobs = db.jobs ∧ db'.log = db.log ∧ db'.deps = db.deps ∧
  ∃ fr ev, db'.frags = db.frags ++ fr ∧ db'.events = db.events ++ ev ∧ (∀ f ∈ fr, S f.jid) ∧ ∀ e ∈ ev, S e.jid

/-- The first segment of the path is the number of the job. -/
def Names (r : Req) (i : Nat) : Prop := ∃ t rest, r.path = t :: rest ∧ pyNat t = some i

/-- The user may act on the job. -/
def Allowed (db : DB) (user : String) (i : Nat) : Prop := ∃ j, db.job? i = some j ∧ MayAct user j

/-- The job is the one of the path, or a job of the array of the path when the request asks for it. -/
def Asked (w : Site) (r : Req) (i : Nat) : Prop := Names r i ∨ (r.array = true ∧ ∃ a, Names r a ∧ i ∈ w.arrays a)

end Oar.ApiJobs
