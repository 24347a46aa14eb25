import Verif.Queues
import Verif.Tools
import Verif.Cli

/-!
# Model of the command oarqueue

`oar/cli/oarqueue.py` and the functions of `oar/lib/queue.py` that write the table of queues. The limits of length of the columns and the
format of the messages are left out. Each function is one SQL statement followed by a commit, so a stop of the command leaves the
table as before or as after it.
-/

namespace Oar.OarQueue

open Oar.Tools
open Oar.Cli (Ret)

/-- A row of the table `queues` (oar/lib/models.py:418-424). -/
structure QRow where
  name : String
  priority : Int
  policy : String
  state : String
  deriving DecidableEq, Repr

/-- What the meta-scheduler reads of a row (oar/kao/meta_sched.py:923-977). -/
def QRow.view (q : QRow) : Queues.Queue := ⟨q.name, q.priority, decide (q.state = "Active")⟩

/-- Models `start_queue` and `stop_queue` (oar/lib/queue.py:30-35): an UPDATE of the rows of that name. -/
def setState (t : List QRow) (n st : String) : List QRow := t.map (fun q => if q.name = n then { q with state := st } else q)

/-- Models `start_all_queues` and `stop_all_queues` (oar/lib/queue.py:46-51). -/
def setAll (t : List QRow) (st : String) : List QRow := t.map (fun q => { q with state := st })

/-- Models `create_queue` (oar/lib/queue.py:62-66); `none`: the primary key is already used. -/
def create (t : List QRow) (n : String) (p : Int) (pol : String) : Option (List QRow) :=
  if t.any (fun q => q.name == n) then none else some (t ++ [⟨n, p, pol, "Active"⟩])

/-- Models `change_queue` (oar/lib/queue.py:69-74). -/
def change (t : List QRow) (n : String) (p : Int) (pol : String) : List QRow :=
  t.map (fun q => if q.name = n then { q with priority := p, policy := pol } else q)

/-- Models `remove_queue` (oar/lib/queue.py:77-79). -/
def remove (t : List QRow) (n : String) : List QRow := t.filter (fun q => decide (q.name ≠ n))

/-- The options of the command (oar/cli/oarqueue.py:100-123): an option not given is the empty text (both are false for Python). -/
structure Args where
  version : Bool := false
  list : Bool := false
  enable : String := ""
  disable : String := ""
  enableAll : Bool := false
  disableAll : Bool := false
  add : String := ""
  change : String := ""
  remove : String := ""
  deriving DecidableEq

/-- The fields of the text of `--add` and `--change` (oar/cli/oarqueue.py:79-83, 86-90): `name, priority, policy = text.split(",")` then `int` of the
priority; `none`: ValueError, or an empty priority, that stays a text and is refused by the integer column of the database. -/
def fields (t : String) : Option (String × Int × String) :=
  match split ',' t.toList with
  | [n, p, pol] => (pyInt p).map (fun i => (String.ofList n, i, String.ofList pol))
  | _ => none

/-- What the command does: the table, the messages, the queues printed; `raised`: it stopped on an exception. -/
structure Out where
  table : List QRow
  ret : Ret := {}
  printed : List QRow := []
  raised : Bool := false
  deriving DecidableEq

/-- The user (oar/cli/oarqueue.py:42-44); `none`: KeyError when `USER` is not in the environment. -/
def userOf (env : String → Option String) : Option String :=
  match env "USER" with
  | none => none
  | some u => some ((env "OARDO_USER").getD u)

/-- The operation asked (oar/cli/oarqueue.py:51-97): the first of the options in that order. `order` is the result of the query ordered by
priority (oar/lib/queue.py:13-14). -/
def operate (order : List QRow → List QRow) (t : List QRow) (a : Args) : Out :=
  if a.list then { table := t, printed := order t }
  else if a.enable ≠ "" then { table := setState t a.enable "Active" }
  else if a.disable ≠ "" then { table := setState t a.disable "notActive" }
  else if a.enableAll then { table := setAll t "Active" }
  else if a.disableAll then { table := setAll t "notActive" }
  else if a.add ≠ "" then
    match fields a.add with
    | none => { table := t, raised := true }
    | some (n, p, pol) =>
      match create t n p pol with
      | none => { table := t, raised := true }
      | some t' => { table := t' }
  else if a.change ≠ "" then
    match fields a.change with
    | none => { table := t, raised := true }
    | some (n, p, pol) => { table := OarQueue.change t n p pol }
  else if a.remove ≠ "" then { table := OarQueue.remove t a.remove }
  else { table := t }

/-- Models `oarqueue` (oar/cli/oarqueue.py:24-97). -/
def oarqueue (env : String → Option String) (order : List QRow → List QRow) (t : List QRow) (a : Args) : Out :=
  if a.version then { table := t, ret := ⟨[0], 0⟩ }
  else
    match userOf env with
    | none => { table := t, raised := true }
    | some u => if u = "oar" ∨ u = "root" then operate order t a else { table := t, ret := ⟨[8], 0⟩ }

/-- Whether no option is given (oar/cli/oarqueue.py:136-148). -/
def Args.none? (a : Args) : Bool :=
  !(a.list || decide (a.enable ≠ "") || decide (a.disable ≠ "") || a.enableAll || a.disableAll || decide (a.add ≠ "") ||
    decide (a.change ≠ "") || decide (a.remove ≠ "") || a.version)

/-- Models `cli` (oar/cli/oarqueue.py:100-163): without option the queues are listed. -/
def cli (env : String → Option String) (order : List QRow → List QRow) (t : List QRow) (a : Args) : Out :=
  oarqueue env order t (if a.none? then { a with list := true } else a)

/-- The exit status of the process: 1 for an exception, otherwise the value of `exit` (oar/cli/utils.py:38-52). -/
def status (o : Out) : Int := if o.raised then 1 else (Cli.exitValue o.ret).1

end Oar.OarQueue
