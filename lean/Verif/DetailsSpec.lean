import Verif.Details

/-!
# What the API should tell about a job
-/

namespace Oar.Details

open Oar.Tools

/-- The identifiers of the jobs and of the resources are unique, as those of the alternatives. -/
structure Db.Ok (db : Db) : Prop where
  jobs : (db.jobs.map Job.id).Nodup
  resources : (db.resources.map Res.id).Nodup
  molds : (db.molds.map Prod.fst).Nodup

/-- The resources assigned to the alternative of a job. -/
def Db.assignedTo (db : Db) (j : Job) : List Nat := (db.assigned.filter (fun a => j.mold = some a.1 ∧ a.2 ∈ db.resources.map Res.id)).map Prod.snd

/-- The types of a job, as they were submitted. -/
def Db.typesOf (db : Db) (j : Job) : List T := (db.types.filter (fun t => t.1 = j.id)).map Prod.snd

/-- A text where the pieces are joined by another one. -/
def joined (s : T) : List T → T
  | [] => []
  | [x] => x
  | x :: y :: l => x ++ s ++ joined s (y :: l)

/-- The columns of the job: the NULL ones are left out. -/
structure TellsColumns (cols : List String) (j : Job) (d : Dict) : Prop where
  columns : ∀ k ∈ cols, k ≠ "stdout_file" → k ≠ "stderr_file" → d k = if j.value k = .null then none else some (j.value k)
  out : "stdout_file" ∈ cols → d "stdout_file" = j.out.map (fun t => .text (replaceId (digits j.id) t.length t))
  err : "stderr_file" ∈ cols → d "stderr_file" = j.err.map (fun t => .text (replaceId (digits j.id) t.length t))
  status : "exit_code" ∈ cols → d "exit_status_code" = (Oarstat.exitStatus j.exit).map (fun n : Nat => .num n)

/-- The details of the job, and of no other one. -/
structure TellsDetails (db : Db) (le : T → T → Bool) (j : Job) (d : Dict) : Prop where
  resources : ∃ l, d "resources" = some (.ids l) ∧ l.Perm (db.assignedTo j)
  nodes : ∃ l : List T, d "nodes" = some (.nodes l) ∧ l.Nodup ∧ ∀ a, a ∈ l ↔ ∃ r ∈ db.resources, r.address = a ∧ r.id ∈ db.assignedTo j
  events : ∃ l, d "events" = some (.events l) ∧ l.Perm (db.events.filter (fun e => e.job = j.id))
  walltime : ∀ w, d "walltime" = some w ↔ ∃ m ∈ db.molds, j.mold = some m.1 ∧ w = .num m.2
  noTypes : db.typesOf j = [] → d "types" = none
  types : db.typesOf j ≠ [] → ∃ l, d "types" = some (.types (parseTypes l)) ∧ l.Perm (db.typesOf j)
  request : ∃ l, d "actual_resources" = some (.text (Oarstat.format l)) ∧ l.Perm (levelsOf db j) ∧ l.Pairwise (fun a b => Oarstat.leLevel le a b = true)

end Oar.Details
