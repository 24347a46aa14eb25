import Mathlib.Algebra.BigOperators.Group.List.Basic

/-!
# Model of `oar/lib/accounting.py`
-/

namespace Oar.Accounting

/-- The key of a row of the table `accounting` (oar/lib/models.py:95-120). -/
structure AKey where
  wstart : Int
  wstop : Int
  user : String
  project : String
  queue : String
  ctype : String
  deriving DecidableEq, Repr

/-- The table `accounting`: key ↦ consumption. -/
abbrev Table := List (AKey × Int)

/-- Models `add_accounting_row` (oar/lib/accounting.py:151-234): add to the existing row or create it. Rows have
distinct keys (primary key of the table), so that "the" row is the first one. -/
def addRow (k : AKey) (c : Int) : Table → Table
  | [] => [(k, c)]
  | (k', c') :: r => if k' = k then (k', c + c') :: r else (k', c') :: addRow k c r

/-- The loop of `update_accounting` (oar/lib/accounting.py:129-148): the windows with their consumption. `fuel` bounds
the number of iterations. -/
def windowsLoop (size nb : Int) : Nat → Int → Int → Int → Int → List (Int × Int × Int)
  | 0, _, _, _, _ => []
  | fuel + 1, start, stop, ws, we =>
    if stop > start then
      let consumption := if stop ≤ we then stop - start else we - start + 1
      (ws, we, consumption * nb) :: windowsLoop size nb fuel (we + 1) stop (we + 1) (we + size)
    else []

/-- The windows visited by `update_accounting` (oar/lib/accounting.py:123-148). `int(start_time / window_size)` is
modelled by the integer division (dates are positive; the rounding of the float division is not modelled). -/
def windows (start stop size nb : Int) : List (Int × Int × Int) :=
  let ws := start / size * size
  windowsLoop size nb (stop - start).toNat start stop ws (ws + size - 1)

/-- Models `update_accounting` (oar/lib/accounting.py:109-148). -/
def updateAccounting (start stop size : Int) (user project queue ctype : String) (nb : Int) (t : Table) : Table :=
  (windows start stop size nb).foldl (fun t e => addRow ⟨e.1, e.2.1, user, project, queue, ctype⟩ e.2.2 t) t

/-- The columns of a job used by the accounting; `nb` is the number of its assigned resources of type "default"
(joins of oar/lib/accounting.py:219-247), `walltime` the walltime of its assigned moldable. -/
structure AJob where
  id : Nat
  state : String
  start : Int
  stop : Int
  walltime : Int
  user : String
  project : String
  queue : String
  nb : Nat
  accounted : Bool
  deriving DecidableEq, Repr

/-- The filters of the query of `check_accounting_update` (oar/lib/accounting.py:252-259); a job without resource of
type default does not appear in the join. -/
def AJob.selected (j : AJob) : Bool :=
  !j.accounted && (j.state == "Terminated" || j.state == "Error") && decide (j.stop ≥ j.start) && decide (j.start > 1) &&
    decide (0 < j.nb)

/-- The two updates for a selected job (oar/lib/accounting.py:283-306). -/
def accountJob (size : Int) (t : Table) (j : AJob) : Table :=
  updateAccounting j.start (j.start + j.walltime) size j.user j.project j.queue "ASKED" j.nb
    (updateAccounting j.start j.stop size j.user j.project j.queue "USED" j.nb t)

/-- Models `check_accounting_update` (oar/lib/accounting.py:237-312): the query is evaluated first; within the loop all the
jobs not yet accounted are marked (l.286-288: the filter does not mention the job). Returns also the jobs accounted. -/
def checkAccounting (size : Int) (t : Table) (jobs : List AJob) : Table × List AJob × List AJob :=
  let sel := jobs.filter AJob.selected
  (sel.foldl (accountJob size) t,
   if sel.isEmpty then jobs else jobs.map (fun j => { j with accounted := true }), sel)

end Oar.Accounting
