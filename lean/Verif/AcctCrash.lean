import Verif.AccountingProps

/-!
# Model of the command `oaraccounting` with its commits and its crash points

`oar/cli/oaraccounting.py`, `oar/lib/accounting.py`. The creation of a row commits everything that precedes it (`BaseModel.create`,
oar/lib/models.py:57-68); an interrupted command leaves what was committed.
-/

namespace Oar.Accounting

/-- The tables. -/
structure Books where
  table : Table
  jobs : List AJob
  deriving DecidableEq, Repr

/-- What the database has (`saved`) and what the session sees (`seen`). -/
structure Sess where
  saved : Books
  seen : Books
  deriving DecidableEq, Repr

/-- The statements of `check_accounting_update`. -/
inductive Op
  /-- `add_accounting_row` (oar/lib/accounting.py:151-234) -/
  | row (k : AKey) (c : Int)
  /-- the update of the flags (oar/lib/accounting.py:308-310) -/
  | mark
  /-- the last commit (oar/lib/accounting.py:312) -/
  | commit
  deriving DecidableEq, Repr

/-- One statement: the update of a row waits for a commit, the creation of one commits (oar/lib/accounting.py:222-234, oar/lib/models.py:63-64). -/
def Op.exec (s : Sess) : Op → Sess
  | .row k c =>
    let seen := { s.seen with table := addRow k c s.seen.table }
    if (s.seen.table.lookup k).isSome then { s with seen := seen } else ⟨seen, seen⟩
  | .mark => { s with seen := { s.seen with jobs := s.seen.jobs.map (fun j => { j with accounted := true }) } }
  | .commit => { s with saved := s.seen }

/-- The statements of `update_accounting` (oar/lib/accounting.py:109-148). -/
def opsRows (start stop size : Int) (user project queue ctype : String) (nb : Int) : List Op :=
  (windows start stop size nb).map (fun e => Op.row ⟨e.1, e.2.1, user, project, queue, ctype⟩ e.2.2)

/-- The statements for a job (oar/lib/accounting.py:283-310). -/
def opsJob (size : Int) (j : AJob) : List Op :=
  opsRows j.start j.stop size j.user j.project j.queue "USED" j.nb ++
  opsRows j.start (j.start + j.walltime) size j.user j.project j.queue "ASKED" j.nb ++ [Op.mark]

/-- The statements of `check_accounting_update` (oar/lib/accounting.py:237-312): the query is evaluated first. -/
def opsPass (size : Int) (jobs : List AJob) : List Op := (jobs.filter AJob.selected).flatMap (opsJob size) ++ [Op.commit]

/-- What the database has when the command is interrupted after `n` statements (`n` large: not interrupted). -/
def passSaved (size : Int) (n : Nat) (b : Books) : Books := (((opsPass size b.jobs).take n).foldl Op.exec ⟨b, b⟩).saved

/-- Models `delete_all_from_accounting` (oar/lib/accounting.py:315-321): one commit. -/
def deleteAll (b : Books) : Books := ⟨[], b.jobs.map (fun j => { j with accounted := false })⟩

/-- Models `delete_accounting_windows_before` (oar/lib/accounting.py:324-329). -/
def deleteBefore (date : Int) (b : Books) : Books := { b with table := b.table.filter (fun r => ! decide (r.1.wstop ≤ date)) }

/-- The options of the command (oar/cli/oaraccounting.py:20-30). -/
structure Opts where
  reinitialize : Bool
  deleteBefore : Option Int
  version : Bool
  deriving DecidableEq, Repr

/-- Models the command (oar/cli/oaraccounting.py:31-68), not interrupted. `size`: ACCOUNTING_WINDOW or 86400. -/
def oaraccounting (size now : Int) (o : Opts) (b : Books) : Books :=
  if o.version then b
  else if o.reinitialize then deleteAll b
  else match o.deleteBefore with
    | none => passSaved size (opsPass size b.jobs).length b
    | some d => if d ≠ 0 then deleteBefore (now - d) b else passSaved size (opsPass size b.jobs).length b

end Oar.Accounting
