import Verif.Tools

/-!
# Model of the requests of the API about resources, with its database session

`oar/api/routers/resource.py`, `db_session_middleware` of `oar/api/app.py`, `set_resource_state` and `remove_resource` of `oar/lib/resource_handling.py`. The middleware is a coroutine:
`scoped()` gives, for each request, the one session of the thread of the event loop. The session is never closed, committed or rolled back by the middleware (only `flush`).
-/

namespace Oar.ApiSession

/-- A resource: its columns but the number, the address and the state are given by name. -/
structure Row where
  id : Nat
  address : String
  state : String
  columns : List (String × String)
  deriving DecidableEq

/-- The tables: the resources, the log of their states (number, state, whether it is the present one). -/
structure Db where
  rows : List Row
  log : List (Nat × String × Bool)
  next : Nat
  deriving DecidableEq

/-- The session: what is committed (and seen by the other programs), what the session sees, the resources that its open transaction has changed (PostgreSQL keeps a lock on them),
whether a statement has failed (PostgreSQL refuses all the following ones until a rollback). -/
structure Session where
  committed : Db
  work : Db
  locked : List Nat
  failed : Bool
  deriving DecidableEq

/-- The columns of the table, and the values that the database accepts. -/
structure World where
  known : String → Bool
  accepts : String → String → Bool

/-- The requests: a page of the list (`/resources`), `/resources/busy`, `/resources/<id>`, the creation, the change of state, the deletion; any other request of the API: whether its
statements succeed, and whether it commits. `restart` is not a request: the server is stopped and started again. -/
inductive Request where
  | list (offset limit : Int)
  | busy
  | show (id : Nat)
  | create (user address : String) (columns : Option (List (String × String)))
  | state (user : String) (id : Nat) (st : String)
  | delete (user : String) (id : Nat)
  | other (ok commits : Bool)
  | restart

/-- The answers: an error of the server or of the client (HTTP code); success; the answer "Bad user"; an error told in the body (`exit_value`). -/
inductive Answer where
  | http (code : Nat)
  | ok
  | created (id : Nat)
  | badUser
  | exit (code : Nat)
  deriving DecidableEq

def admin (user : String) : Bool := user == "oar" || user == "root"

/-- `Session.commit`. -/
def commit (s : Session) : Session := { committed := s.work, work := s.work, locked := [], failed := false }

/-- A statement that the database refuses. -/
def fail (s : Session) : Session := { s with failed := true }

/-- The stop of the server: the open transaction is lost. -/
def restart (s : Session) : Session := { committed := s.committed, work := s.committed, locked := [], failed := false }

/-- `paginate` (oar/api/query.py:16-23, 43-60): a negative offset is refused before the query; PostgreSQL refuses a negative limit and an offset or a limit above the biggest integer of 64
bits. -/
def listPage (s : Session) (offset limit : Int) : Session × Answer :=
  if offset < 0 then (s, .http 404)
  else if s.failed then (s, .http 500)
  else if limit < 0 ∨ 9223372036854775807 < limit ∨ 9223372036854775807 < offset then (fail s, .http 500)
  else if (s.work.rows.drop offset.toNat).take limit.toNat = [] ∧ offset ≠ 0 then (s, .http 404)
  else (s, .ok)

/-- The row made by a creation: a value given for the address or the state replaces the default one (oar/api/routers/resource.py:150-151). -/
def newRow (id : Nat) (address : String) (columns : List (String × String)) : Row :=
  { id := id
    address := ((columns.reverse.find? (fun p => p.1 == "network_address")).map (·.2)).getD address
    state := ((columns.reverse.find? (fun p => p.1 == "state")).map (·.2)).getD "Alive"
    columns := columns.filter (fun p => p.1 != "network_address" && p.1 != "state") }

/-- `create` (oar/api/routers/resource.py:138-162): the text of the properties is read before the check of the user; a name that is not a column raises before the statement; there is no
commit, and no row of log. -/
def create (w : World) (s : Session) (user address : String) (columns : Option (List (String × String))) : Session × Answer :=
  match columns with
  | none => (s, .http 500)
  | some cs =>
    if admin user = false then (s, .badUser)
    else if cs.all (fun p => w.known p.1) = false then (s, .http 500)
    else if s.failed then (s, .http 500)
    else if cs.all (fun p => w.accepts p.1 p.2) = false then (fail s, .http 500)
    else
      ({ s with work := { s.work with rows := s.work.rows ++ [newRow s.work.next address cs], next := s.work.next + 1 } }, .created s.work.next)

/-- The states of `State_to_num` (oar/lib/resource_handling.py:23). -/
def states : List String := ["Alive", "Absent", "Suspected", "Dead"]

/-- `set_resource_state` (oar/lib/resource_handling.py:71-99) on the tables: the row of the resource, the end of the present row of the log, a new row of the log; no commit. -/
def setState (d : Db) (id : Nat) (st : String) : Db :=
  { d with
    rows := d.rows.map (fun r => if r.id = id then { r with state := st } else r)
    log := d.log.map (fun l => if l.1 = id then (l.1, l.2.1, false) else l) ++ [(id, st, true)] }

/-- `state` (oar/api/routers/resource.py:111-135): a state that is not known raises before the statement. -/
def state (s : Session) (user : String) (id : Nat) (st : String) : Session × Answer :=
  if admin user = false then (s, .badUser)
  else if st ∉ states then (s, .http 500)
  else if s.failed then (s, .http 500)
  else ({ s with work := setState s.work id st, locked := if s.work.rows.any (fun r => r.id == id) then id :: s.locked else s.locked }, .ok)

/-- `delete` (oar/api/routers/resource.py:165-194) with `remove_resource` (oar/lib/resource_handling.py:187-236) on these tables; the jobs are in another model. -/
def delete (s : Session) (user : String) (id : Nat) : Session × Answer :=
  if id = 0 then (s, .exit 1)
  else if admin user = false then (s, .exit 4)
  else if s.failed then (s, .http 500)
  else match s.work.rows.find? (fun r => r.id == id) with
    | none => (s, .http 500)
    | some r =>
      if r.state = "Dead" then
        (commit { s with work := { s.work with rows := s.work.rows.filter (fun r => r.id != id), log := s.work.log.filter (fun l => l.1 != id) } }, .exit 0)
      else (s, .exit 3)

/-- A request. `show` (oar/api/routers/resource.py:78-84) calls `get_or_404`, that the queries of SQLAlchemy do not have. -/
def step (w : World) (s : Session) : Request → Session × Answer
  | .list o l => listPage s o l
  | .busy => if s.failed then (s, .http 500) else (s, .ok)
  | .show _ => (s, .http 500)
  | .create u a cs => create w s u a cs
  | .state u i st => state s u i st
  | .delete u i => delete s u i
  | .other ok commits =>
    if s.failed then (s, .http 500)
    else if ok = false then (fail s, .http 500)
    else (if commits then commit s else s, .ok)
  | .restart => (restart s, .ok)

/-- A history. -/
def run (w : World) (s : Session) (rs : List Request) : Session := rs.foldl (fun s r => (step w s r).1) s

/-- Another program that changes a resource waits while the row is locked. -/
def Waits (s : Session) (id : Nat) : Prop := id ∈ s.locked

end Oar.ApiSession
