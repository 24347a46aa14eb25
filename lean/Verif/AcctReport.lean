import Verif.Accounting
import Verif.Tools

/-!
# Model of `oarstat --accounting "FROM, TO"` : from the rows of the table `accounting` to the figures printed
-/

namespace Oar.Report

open Oar.Accounting

/-! ## The two queries -/

/-- A row of the table `accounting` (oar/lib/models.py:95-120). -/
abbrev ARow := AKey × Int

/-- The `WHERE` of the two queries (oar/lib/accounting.py:35-36, 45, 74-76, 89-90). `user` is the option `-u` (`none` : not
given), `prop` the text of the option `--sql`, seen as a condition on the rows (`fun _ => true` : not given). That the text of
the user is put between quotes as it is, is not modelled: the user is compared as a value. -/
def selects (d1 d2 : Int) (user : Option String) (prop : ARow → Bool) (r : ARow) : Bool :=
  decide (d1 < r.1.wstop) && decide (r.1.wstart < d2) && (match user with | none => true | some u => r.1.user == u) && prop r

/-- One row of the answer of the first query (oar/lib/accounting.py:41-46). -/
structure Group where
  user : String
  ctype : String
  seconds : Int
  first : Int
  last : Int
  deriving DecidableEq, Repr

/-- The rows of a group. -/
def ofGroup (rows : List ARow) (k : String × String) : List ARow := rows.filter fun r => (r.1.user, r.1.ctype) == k

/-- `GROUP BY accounting_user, consumption_type` with `sum(consumption)`, `min(window_start)`, `max(window_stop)`
(oar/lib/accounting.py:41-46). -/
def groups (rows : List ARow) : List Group :=
  (rows.map fun r => (r.1.user, r.1.ctype)).eraseDups.map fun k =>
    ⟨k.1, k.2, ((ofGroup rows k).map (·.2)).sum, ((ofGroup rows k).map (·.1.wstart)).min?.getD 0,
      ((ofGroup rows k).map (·.1.wstop)).max?.getD 0⟩

/-- What the database may answer to the first query: the groups of the rows selected, by increasing seconds
(`ORDER BY seconds`, oar/lib/accounting.py:46); nothing says how the ties are ordered. -/
def Answer (rows : List ARow) (l : List Group) : Prop := l.Perm (groups rows) ∧ l.Pairwise (fun a b => a.seconds ≤ b.seconds)

/-- One row of the answer of the second query (oar/lib/accounting.py:86-92). -/
structure PGroup where
  user : String
  project : String
  ctype : String
  seconds : Int
  deriving DecidableEq, Repr

/-- The rows of a group of the second query. -/
def ofPGroup (rows : List ARow) (k : String × String × String) : List ARow :=
  rows.filter fun r => (r.1.user, r.1.project, r.1.ctype) == k

/-- `GROUP BY accounting_user, project, consumption_type` with `sum(consumption)` (oar/lib/accounting.py:86-92). -/
def pgroups (rows : List ARow) : List PGroup :=
  (rows.map fun r => (r.1.user, r.1.project, r.1.ctype)).eraseDups.map fun k =>
    ⟨k.1, k.2.1, k.2.2, ((ofPGroup rows k).map (·.2)).sum⟩

/-- What the database may answer to the second query: its groups in some order. The `ORDER BY` (oar/lib/accounting.py:92)
depends on the collation of the database and only decides the order of the lines printed: any order is admitted. -/
def PAnswer (rows : List ARow) (l : List PGroup) : Prop := l.Perm (pgroups rows)

/-! ## Dictionaries -/

/-- `d[k] = v` on a dictionary of Python: in place if the key is there, at the end if it is not. -/
def put {α : Type} (k : String) (v : α) : List (String × α) → List (String × α)
  | [] => [(k, v)]
  | (k', v') :: d => if k' = k then (k', v) :: d else (k', v') :: put k v d

/-- The value of `results[user]` (oar/lib/accounting.py:54-58): the consumptions by type, `"begin"` and `"end"`. -/
structure Entry where
  types : List (String × Int)
  begin : Int
  stop : Int
  deriving DecidableEq, Repr

/-- One iteration of oar/lib/accounting.py:52-58. -/
def addGroup (res : List (String × Entry)) (g : Group) : List (String × Entry) :=
  put g.user ⟨put g.ctype g.seconds ((res.lookup g.user).map Entry.types |>.getD []), g.first, g.last⟩ res

/-- Models `get_accounting_summary` (oar/lib/accounting.py:20-60) on the answer of the database. -/
def summary (l : List Group) : List (String × Entry) := l.foldl addGroup []

/-- One iteration of oar/lib/accounting.py:98-104. -/
def addPGroup (res : List (String × List (String × List (String × Int)))) (g : PGroup) :
    List (String × List (String × List (String × Int))) :=
  let byType := (res.lookup g.project).getD []
  put g.project (put g.ctype (put g.user g.seconds ((byType.lookup g.ctype).getD [])) byType) res

/-- Models `get_accounting_summary_byproject` (oar/lib/accounting.py:63-106) on the answer of the database; the limit and the
offset are not given by `oarstat`. -/
def summaryByProject (l : List PGroup) : List (String × List (String × List (String × Int))) := l.foldl addPGroup []

/-! ## What is printed -/

/-- `asked = 0; if "ASKED" in …: asked = …` (oar/cli/oarstat.py:195-201, 355-361). -/
def figure (e : Entry) (ctype : String) : Int := (e.types.lookup ctype).getD 0

/-- The figures of a project (oar/cli/oarstat.py:397-410). -/
def projectFigure (c : List (String × List (String × Int))) (user ctype : String) : Int :=
  (((c.lookup ctype).getD []).lookup user).getD 0

/-- The figures printed for one user (oar/cli/oarstat.py:363-423): start of the first window, end of the last one, asked, used,
and for each project asked and used. The rendering (dates, durations, columns) and the last karma are not modelled. -/
structure Shown where
  begin : Int
  stop : Int
  asked : Int
  used : Int
  projects : List (String × Int × Int)
  deriving DecidableEq, Repr

/-- The figures of one user (oar/cli/oarstat.py:350-428); `none` : "not in the accounting table". -/
def shownUser (user : String) (l : List Group) (p : List PGroup) : Option Shown :=
  ((summary l).lookup user).map fun e =>
    ⟨e.begin, e.stop, figure e "ASKED", figure e "USED",
      (summaryByProject p).map fun q => (q.1, projectFigure q.2 user "ASKED", projectFigure q.2 user "USED")⟩

/-- One line of the array printed for all the users: user, begin, end, asked, used (oar/cli/oarstat.py:184-213). -/
def lines (l : List Group) : List (String × Int × Int × Int × Int) :=
  (summary l).map fun q => (q.1, q.2.begin, q.2.stop, figure q.2 "ASKED", figure q.2 "USED")

/-! ## The period -/

/-- `\d{n}` (digits of ASCII only). -/
def digitsN : Nat → List Char → Option (List Char × List Char)
  | 0, s => some ([], s)
  | n + 1, c :: s => if c.isDigit then (digitsN n s).map fun r => (c :: r.1, r.2) else none
  | _ + 1, [] => none

/-- `\d{1,2}`, greedy. In the expression of oar/cli/oarstat.py:337 what follows is never a digit, so that the shorter match is
never of use when there are two digits, but at the end of the expression where the greedy one always succeeds. -/
def digits12 : List Char → Option (List Char × List Char)
  | c :: c' :: s => if c.isDigit then (if c'.isDigit then some ([c, c'], s) else some ([c], c' :: s)) else none
  | [c] => if c.isDigit then some ([c], []) else none
  | [] => none

/-- A literal character. -/
def lit (c : Char) : List Char → Option (List Char)
  | c' :: s => if c' = c then some s else none
  | [] => none

/-- `\s*`. -/
def spaces (s : List Char) : List Char := s.dropWhile Char.isWhitespace

/-- `(\d{4}\-\d{1,2}\-\d{1,2})` (oar/cli/oarstat.py:337): year, month, day. -/
def day (s : List Char) : Option ((List Char × List Char × List Char) × List Char) := do
  let (y, s) ← digitsN 4 s
  let s ← lit '-' s
  let (m, s) ← digits12 s
  let s ← lit '-' s
  let (d, s) ← digits12 s
  return ((y, m, d), s)

/-- The `re.match` of `print_accounting` (oar/cli/oarstat.py:336-338). What follows the second day is not looked at. -/
def period (s : List Char) : Option ((List Char × List Char × List Char) × (List Char × List Char × List Char)) := do
  let (a, s) ← day (spaces s)
  let s ← lit ',' (spaces s)
  let (b, _) ← day (spaces s)
  return (a, b)

end Oar.Report
