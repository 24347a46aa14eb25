import Verif.RoundExt
import Verif.RoundSpec

/-!
# Specification vocabulary for the external mode (C102)
-/

namespace Oar.Round.Spec

open Oar.Launch Oar.ResSet Oar.JobTypes Oar.Tools

/-- The queues seen as groups of one queue, without reservation to examine. -/
def alone (qs : List Que) : List Grp := qs.map (fun q => ⟨[q.name], q.waiting, []⟩)

/-- The waiting best-effort jobs are in the queue `besteffort`, which is the last one. -/
def BestEffortLast (qs : List Que) (db : DB) : Prop :=
  (∀ pre q post, qs = pre ++ q :: post → q.name = "besteffort" → post = []) ∧
  ∀ q ∈ qs, q.name ≠ "besteffort" → ∀ w ∈ q.waiting, ∀ j ∈ db.jobs, j.id = w.id → ¬ BestEffort j

/-- The scheduler adds the security time to the walltimes of the waiting jobs; a waiting job is not marked as suspended; identifiers begin at 1. -/
structure Timed (sec : Int) (qs : List Que) (db : DB) : Prop where
  walltime : ∀ q ∈ qs, ∀ w ∈ q.waiting, ∀ m ∈ w.mlds, ∀ d ∈ db.molds, d.id = m.id → m.walltime = d.walltime + sec
  suspended : ∀ j ∈ db.jobs, j.state = "Waiting" → j.suspended = false
  numbers : ∀ m ∈ db.molds, m.id ≠ 0

/-- What is planned does not overlap: two jobs with dates in the Gantt and a common resource follow each other; `sec` is the security time. -/
def Disjoint (sec : Int) (db : DB) : Prop :=
  ∀ a ∈ join db, ∀ b ∈ join db, a.job.id ≠ b.job.id → a.rid = b.rid → a.job.state = "Waiting" → b.job.state = "Waiting" →
    a.start + (a.walltime + sec) ≤ b.start ∨ b.start + (b.walltime + sec) ≤ a.start

/-- The histories: from tables in which no job occupies resources, regular rounds, in internal or in external mode, whatever happens to the schedulers, and changes by the other programs. -/
inductive ExtHistory : DB → Prop
  | start (db : DB) (h : ∀ j ∈ db.jobs, ¬ Occupies j) : ExtHistory db
  | other (db db' : DB) (h : ExtHistory db) (hb : Between db db') : ExtHistory db'
  | inside (cf : Conf) (ctx : Kao.Ctx) (s : RS) (ord : List Row → List Row) (gs : List Grp) (now : Int) (db db' : DB) (code : Int) (h : ExtHistory db)
      (hord : ∀ l, (ord l).Perm l) (hr : Regular cf ctx s gs now db) (hrun : Round.round cf ctx s ord gs now db = some (db', code)) : ExtHistory db'
  | round (cf : Conf) (quotas : Bool) (ctx : Kao.Ctx) (s : RS) (ord : List Row → List Row) (qs : List Que) (now : Int) (db db' : DB) (code : Int) (stopped : List String)
      (h : ExtHistory db) (hord : ∀ l, (ord l).Perm l) (hr : Regular cf ctx s (alone qs) now db) (hbe : BestEffortLast qs db) (ht : Timed cf.sec qs db)
      (hrun : extRound cf quotas ctx s ord qs now db = some (db', code, stopped)) : ExtHistory db'

/-- `x` are the tables read by the scheduler of the queue that comes after the queues `pre`. -/
def Seen (cf : Conf) (quotas : Bool) (ctx : Kao.Ctx) (s : RS) (pre : List Que) (now : Int) (db x : DB) : Prop :=
  ∃ db1 ctx1 sets sched js y, Round.init ctx s cf.sec now db = some (db1, ctx1, sets, sched, js) ∧ extQueues cf quotas ctx1 s now pre (db1, sets, []) = some (x, y)

/-- The scheduler runs to its end without exception on the tables `x`. -/
def Succeeds (cf : Conf) (quotas : Bool) (s : RS) (now : Int) (q : Que) (x : DB) : Prop := q.fate = .run ∧ (child quotas s cf.sec now q x).isSome = true

/-- The program of the scheduler is missing, it is killed before it writes the Gantt, or an exception stops it on the tables it reads. -/
def Fails (cf : Conf) (quotas : Bool) (ctx : Kao.Ctx) (s : RS) (pre : List Que) (now : Int) (db : DB) (q : Que) : Prop :=
  q.fate = .missing ∨ (∃ n, q.fate = .signal n false) ∨ ∀ x, Seen cf quotas ctx s pre now db x → child quotas s cf.sec now q x = none

/-- The same queue without waiting job. -/
def emptied (q : Que) : Que := ⟨q.name, [], .run⟩

end Oar.Round.Spec
