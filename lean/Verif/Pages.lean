import Verif.Api

/-!
# Model of the lists read page by page

The routes of the API that answer pages, each page being a query of its own: between two of them the tables change.
-/

namespace Oar.Pages

open Oar.Api

/-- Puts a row at its place; `ORDER BY id` of SQL, the rows of the same identifier staying in the order of the database. -/
def place {α : Type} (key : α → Nat) (a : α) : List α → List α
  | [] => [a]
  | b :: l => if key a ≤ key b then a :: b :: l else b :: place key a l

/-- `query.order_by(id)` (oar/lib/basequery.py:197, 214, 402), on the rows as the database gives them. -/
def orderBy {α : Type} (key : α → Nat) (rows : List α) : List α := rows.foldr (place key) []

/-- A row of `resources`: the columns of the list that is not detailed. -/
structure Res where
  id : Nat
  address : String
  state : String
  deriving DecidableEq, Repr

/-- Models `get_resources` (oar/lib/basequery.py:199-214), the query of `GET /resources` (oar/api/routers/resource.py:30-62); the columns loaded are left out. -/
def resources (addr : Option String) (rows : List Res) : List Res :=
  orderBy Res.id (match addr with | none => rows | some a => rows.filter (fun r => r.address == a))

/-- Models `get_jobs_resource` (oar/lib/basequery.py:393-402), the query of `GET /resources/{id}/jobs` (oar/api/routers/resource.py:87-104). Simplification: a job to which the resource
is assigned by two alternatives is given once (the ORM removes the doubles of a page). -/
def resourceJobs (rid : Nat) (db : Db) : List Job :=
  orderBy Job.id (db.jobs.filter (fun j => db.assigned.any (fun a => a.rid == rid && db.molds.any (fun m => m.id == a.mold && m.job == j.id))))

/-- Models the query of `GET /jobs` (oar/api/routers/job.py:92-116; oar/lib/basequery.py:58-156, 166-197), the table being given in any order. -/
def jobs (f : Filter) (db : Db) : List Job := orderBy Job.id (jobsForUser db f)

/-- A row of `event_logs`. -/
structure Event where
  id : Nat
  job : Nat
  kind : String
  date : Int
  deriving DecidableEq, Repr

/-- Models `get_one_job_events` (oar/lib/basequery.py:359-376), the query of `GET /jobs/{id}/events` (oar/api/routers/job.py:208-230): no order is asked for, the rows come as the database
gives them. -/
def jobEvents (job : Nat) (rows : List Event) : List Event := rows.filter (fun e => e.job == job)

/-- The answer to the request number `k` of a reading with pages of `limit` rows (oar/api/query.py:16-23, 43-62; the loops of the routes copy the items): the offset is `k * limit`, and
the query is executed on the tables of that moment. -/
def answer {α : Type} (query : Nat → List α) (limit k : Nat) : Option (Page α) := paginate (query k) ((k * limit : Nat) : Int) limit

/-- What the first `n` requests give, one after the other; nothing for an error 404. -/
def given {α : Type} (query : Nat → List α) (limit n : Nat) : List α :=
  (List.range n).flatMap (fun k => match answer query limit k with | none => [] | some p => p.items)

end Oar.Pages
