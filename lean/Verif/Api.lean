/-!
# Model of the decisions of the REST API

`oar/api/auth.py`, `oar/api/url_utils.py`, `oar/api/query.py`, `oar/lib/basequery.py`.
-/

namespace Oar.Api

/-! ## Authentication -/

/-- The payload of a token whose signature is valid (oar/lib/access_token.py:9-30): the user, and the text of the date of issue. A date text is
represented by the number of seconds it denotes when read as UTC; `none`: missing, or not of the form `YYYY-MM-DD hh:mm:ss`. -/
structure Token where
  user : Option String
  date : Option Int
  deriving DecidableEq, Repr

/-- The content of the file of revocations (oar/api/app.py:67-77): the entry `global` if present, the entries of `revoked`. The
dates are represented as in `Token`. -/
structure Revoked where
  glob : Option (Option Int)
  users : List (String × Option Int)
  deriving DecidableEq, Repr

/-- The answer: the user, an error 401, or an exception (error 500). -/
inductive Auth
  | accepted (user : String)
  | refused
  | crashed
  deriving DecidableEq, Repr

/-- Models `check_reservation` (oar/lib/submission.py:1525-1541) with `sql_to_local` (oar/lib/tools.py:652-658): the text is read as a local
date; `off` is the offset of the local time zone, taken constant. -/
def checkReservation (off : Int) (date : Option Int) : Option Int := date.map (fun c => c - off)

/-- `revocation_date > issued_date`; `none`: TypeError when one of them is None. -/
def later (rev issued : Option Int) : Option Bool :=
  match rev, issued with
  | some r, some i => some (decide (r > i))
  | _, _ => none

/-- `revoked_tokens["revoked"][user]`. -/
def Revoked.find (r : Revoked) (u : String) : Option (Option Int) := (r.users.find? (fun p => p.1 == u)).map Prod.snd

/-- The test of the global entry (oar/api/auth.py:51-57). -/
def globalRevoked (off : Int) (t : Token) (r : Revoked) : Option Bool :=
  match r.glob with
  | none => some false
  | some d => later (checkReservation off d) (checkReservation off t.date)

/-- The test of the entry of the user (oar/api/auth.py:59-66). -/
def userRevoked (off : Int) (t : Token) (r : Revoked) : Option Bool :=
  match t.user with
  | none => some false
  | some u =>
    match r.find u with
    | none => some false
    | some d => later (checkReservation off d) (checkReservation off t.date)

/-- Models `need_authentication` (oar/api/auth.py:33-84); `none`: the token is not valid, or its payload is empty. -/
def needAuthentication (off : Int) (data : Option Token) (r : Revoked) : Auth :=
  match data with
  | none => .refused
  | some t =>
    match globalRevoked off t r with
    | none => .crashed
    | some true => .refused
    | some false =>
      match userRevoked off t r with
      | none => .crashed
      | some true => .refused
      | some false =>
        match t.user with
        | none => .refused
        | some u => if u = "" then .refused else .accepted u

/-! ## Pagination -/

/-- `l[a:b]` for `0 ≤ a`. -/
def slice {α : Type} (l : List α) (a : Nat) (b : Int) : List α :=
  let stop := if b < 0 then (l.length : Int) + b else b
  (l.drop a).take (stop - a).toNat

/-- Models `list_paginate` (oar/api/url_utils.py:17-30); `none`: error 404. -/
def listPaginate {α : Type} (items : List α) (offset : Int) (limit : Option Int) : Option (List α) :=
  if offset < 0 ∨ offset > items.length then none
  else some (slice items offset.toNat (min (items.length : Int) (offset + limit.getD 25)))

/-- A page of a query: the items and the total. -/
structure Page (α : Type) where
  items : List α
  total : Nat
  deriving DecidableEq, Repr

/-- Models `paginate` and `PaginationQuery` (oar/api/query.py:16-40, 43-62): the query is the list of its rows in the order requested;
`none`: error 404. -/
def paginate {α : Type} (rows : List α) (offset : Int) (limit : Nat) : Option (Page α) :=
  if offset < 0 then none
  else
    let items := (rows.drop offset.toNat).take limit
    let total := if offset = 0 ∧ items.length < limit then items.length else rows.length
    if items = [] ∧ offset ≠ 0 then none else some ⟨items, total⟩

/-! ## Lists of jobs -/

/-- A row of `jobs`. -/
structure Job where
  id : Nat
  user : String
  state : String
  array : Nat := 0
  mold : Nat := 0
  start : Int := 0
  stop : Int := 0
  submission : Int := 0
  deriving DecidableEq, Repr

/-- A row of `moldable_job_descriptions`. -/
structure Mold where
  id : Nat
  job : Nat
  walltime : Int
  deriving DecidableEq, Repr

/-- A row of `assigned_resources`; the index is CURRENT or LOG. -/
structure Assigned where
  mold : Nat
  rid : Nat
  current : Bool
  deriving DecidableEq, Repr

/-- The tables read. `preds` and `visu`: the two tables of the visualised Gantt. -/
structure Db where
  jobs : List Job
  molds : List Mold
  assigned : List Assigned
  preds : List (Nat × Int)
  visu : List (Nat × Nat)
  rids : List Nat
  deriving Repr

/-- The filters of a list of jobs (the property in SQL is left out: the API never gives one). -/
structure Filter where
  user : Option String := none
  fromT : Option Int := none
  toT : Option Int := none
  states : List String := []
  ids : List Nat := []
  array : Nat := 0

/-- `if x` for a date. -/
def truthy (x : Option Int) : Bool := x.getD 0 != 0

/-- The default states (oar/lib/basequery.py:64-74). -/
def liveStates : List String := ["Finishing", "Running", "Resuming", "Suspended", "Launching", "toLaunch", "Waiting", "Hold", "toAckReservation"]

/-- `not states and not (job_ids or array_id)` (oar/lib/basequery.py:63). -/
def Filter.plain (f : Filter) : Bool := f.states.isEmpty && f.ids.isEmpty && f.array == 0

/-- The states kept, `[]` for all of them (oar/lib/basequery.py:63-80). -/
def Filter.kept (f : Filter) : List String :=
  if f.plain then (if truthy f.fromT || truthy f.toT then liveStates ++ ["Terminated", "Error"] else liveStates) else f.states

/-- Whether an index CURRENT (`true`) or LOG (`false`) is looked at (oar/lib/basequery.py:62, 75-82). -/
def Filter.index (f : Filter) (current : Bool) : Bool :=
  if !f.ids.isEmpty || f.array != 0 then true
  else if f.plain then (if truthy f.fromT || truthy f.toT then true else current)
  else !current

/-- Models `apply_commons_filters` (oar/lib/basequery.py:110-118); an empty name is no filter. -/
def Filter.common (f : Filter) (j : Job) : Bool :=
  (match f.user with | none => true | some u => u == "" || j.user == u) &&
  (f.kept.isEmpty || decide (j.state ∈ f.kept)) && (f.array == 0 || j.array == f.array) && (f.ids.isEmpty || decide (j.id ∈ f.ids))

/-- A bound given or not. -/
def bound (b : Option Int) (p : Int → Bool) : Bool := match b with | none => true | some t => p t

/-- The first query (oar/lib/basequery.py:85-92, 103-104, 124-135). -/
def q1 (db : Db) (f : Filter) (j : Job) : Bool :=
  db.assigned.any (fun a => j.mold == a.mold && (f.index a.current || j.mold == 0) && db.molds.any (fun m => m.job == j.id &&
    f.common j &&
    bound f.fromT (fun t => decide (j.stop ≥ t) ||
      (j.stop == 0 && ((j.state == "Running" && decide (j.start + m.walltime ≥ t)) || j.state == "Suspended" || j.state == "Resuming"))) &&
    bound f.toT (fun t => decide (j.start < t))))

/-- The second query (oar/lib/basequery.py:93-97, 105-106, 137-147). -/
def q2 (db : Db) (f : Filter) (j : Job) : Bool :=
  db.preds.any (fun p => db.visu.any (fun v => p.1 == v.1) && db.molds.any (fun m => p.1 == m.id && j.id == m.job && f.common j &&
    bound f.fromT (fun t => decide (p.2 + m.walltime ≥ t)) && bound f.toT (fun t => decide (p.2 < t))))

/-- The third query (oar/lib/basequery.py:98-99, 107-108, 149-150). -/
def q3 (f : Filter) (j : Job) : Bool :=
  j.stop == 0 && f.common j && bound f.fromT (fun t => decide (j.submission ≥ t)) && bound f.toT (fun t => decide (j.submission ≤ t))

/-- Models `get_jobs_for_user` (oar/lib/basequery.py:58-156, 166-197): the union of the three queries, in the order of the identifiers;
the table is given in this order. The outer join with the description assigned adds no row: the identifiers are unique. -/
def jobsForUser (db : Db) (f : Filter) : List Job := db.jobs.filter (fun j => q1 db f j || q2 db f j || q3 f j)

/-- Models `get_assigned_one_job_resources` (oar/lib/basequery.py:317-333), used by `GET /jobs/{id}/resources`: the argument is not
used, the filter on the job is in a comment. -/
def oneJobResources (db : Db) (_job : Nat) : List Nat :=
  db.jobs.flatMap (fun j => (db.assigned.filter (fun a => j.mold == a.mold && decide (a.rid ∈ db.rids))).map Assigned.rid)

end Oar.Api
