import Verif.Tools

/-!
# Model of the messages of the jobs

The text written at the submission (`format_job_message_text`), those written by the rounds of the meta-scheduler (`job_message`, through `save_assigns`), their corrections by regular
expressions when a reservation loses resources or time, and the karma read in them by `oarstat --accounting`.
-/

namespace Oar.Messages

open Oar.Tools

/-- The arguments of `format_job_message_text` (oar/lib/tools.py:826-836) given by a submission (oar/lib/submission.py:966-976, 1183-1193): the additional message is empty. The estimated
walltime is an integer and `none` is the absent name. -/
structure Sub where
  name : Option (List Char)
  nb : Nat
  wall : Int
  inter : Bool
  reserv : Bool
  queue : List Char
  project : List Char
  types : List (List Char)

/-- The mode (oar/lib/tools.py:837-841). -/
def mode (s : Sub) : List Char := if s.reserv then txt "R" else if s.inter then txt "I" else txt "B"

/-- The part of the name (oar/lib/tools.py:849-850): nothing for an absent or an empty name. -/
def namePart (s : Sub) : List Char :=
  match s.name with
  | none => []
  | some n => if n = [] then [] else txt "N=" ++ n ++ txt ","

/-- The part of the queue (oar/lib/tools.py:851-852). -/
def queuePart (s : Sub) : List Char := if s.queue ≠ txt "default" ∧ s.queue ≠ txt "besteffort" then txt "Q=" ++ s.queue ++ txt "," else []

/-- The part of the project (oar/lib/tools.py:853-854). -/
def projectPart (s : Sub) : List Char := if s.project ≠ txt "default" then txt "P=" ++ s.project ++ txt "," else []

/-- `sep.join(l)`. -/
def joined (sep : List Char) : List (List Char) → List Char
  | [] => []
  | [a] => a
  | a :: b :: l => a ++ sep ++ joined sep (b :: l)

/-- The part of the types (oar/lib/tools.py:843-845, 855). -/
def typesPart (s : Sub) : List Char := if s.types = [] then [] else txt "T=" ++ joined (txt "|") s.types ++ txt ","

/-- Models `format_job_message_text` (oar/lib/tools.py:826-862) as called by the submissions: the last character is dropped (line 857). -/
def submitted (s : Sub) : List Char :=
  (txt "R=" ++ str s.nb ++ txt ",W=" ++ durationToSql s.wall ++ txt ",J=" ++ mode s ++ txt "," ++ namePart s ++ queuePart s ++ projectPart s ++ typesPart s).dropLast

/-- A row of the table of the jobs: what the messages are made of, the message itself and the last karma (oar/lib/models.py: Job). An absent name is the empty text: the code only tests
whether it is true. -/
structure Row where
  id : Nat
  passive : Bool
  queue : List Char
  name : List Char
  user : List Char
  project : List Char
  start : Int
  message : List Char
  karma : Option (List Char)
  deriving DecidableEq

/-- What `save_assigns` knows of a job besides its row: its date, its number of resources and, when the attributes were set, its walltime and its karma (the text of the number). -/
structure Place where
  id : Nat
  start : Int
  nb : Nat
  wall : Option Int
  karma : Option (List Char)
  deriving DecidableEq

/-- The fields written by `job_message` (oar/lib/job_handling.py:610-629). `save_assigns` gives the number of resources: when it is 0 the length of `res_set`, which is the same number, is
written. -/
def fields (r : Row) (p : Place) : List (List Char) :=
  [txt "R=" ++ str p.nb] ++ (match p.wall with | none => [] | some w => [txt "W=" ++ str w]) ++ [if r.passive then txt "J=P" else txt "J=I"] ++
    [txt "Q=" ++ r.queue] ++ (if r.name = [] then [] else [txt "N=" ++ r.name])

/-- The end of the message (oar/lib/job_handling.py:634-635). -/
def karmaPart (p : Place) : List Char :=
  match p.karma with
  | none => []
  | some k => txt " (Karma=" ++ k ++ txt ")"

/-- Models `job_message` (oar/lib/job_handling.py:600-638). -/
def message (r : Row) (p : Place) : List Char := joined (txt ",") (fields r p) ++ karmaPart p

/-- The jobs that `save_assigns` saves for a row: those of its number with a date (oar/lib/job_handling.py:649-650). -/
def saved (ps : List Place) (r : Row) : List Place := ps.filter (fun p => p.id = r.id ∧ p.start > -1)

/-- The messages and karmas written by `save_assigns` (oar/lib/job_handling.py:641-679, set_job_last_karma 1157-1164): the dictionary of the messages keeps the last one of each number. The rows
of the Gantt are those of `Round.saveRows`. -/
def save (rows : List Row) (ps : List Place) : List Row :=
  rows.map (fun r => match (saved ps r).getLast? with
    | none => r
    | some p => { r with message := message r p, karma := (((saved ps r).filterMap (·.karma)).getLast?).orElse (fun _ => r.karma) })

/-- The number of digits at the beginning of a text (`\d*`); the digits which are not ASCII are left out. -/
def digitsAt (l : List Char) : Nat := (l.takeWhile Char.isDigit).length

/-- The length of the match of `R=\d+` at the beginning of a text (oar/kao/meta_sched.py:341). -/
def matchR : List Char → Option Nat
  | 'R' :: '=' :: l => if digitsAt l = 0 then none else some (2 + digitsAt l)
  | _ => none

/-- The length of the match of `\d+` followed by the pattern `k`. -/
def digitsThen (k : List Char → Option Nat) (l : List Char) : Option Nat :=
  if digitsAt l = 0 then none else (k (l.drop (digitsAt l))).map (fun n => digitsAt l + n)

/-- The length of the match of `:` followed by the pattern `k`. -/
def colonThen (k : List Char → Option Nat) : List Char → Option Nat
  | ':' :: l => (k l).map (fun n => 1 + n)
  | _ => none

/-- The length of the match of `\d+:\d+:\d+`. -/
def matchHms : List Char → Option Nat := digitsThen (colonThen (digitsThen (colonThen (digitsThen (fun _ => some 0)))))

/-- The length of the match of `W=\d+:\d+:\d+` at the beginning of a text (oar/kao/meta_sched.py:599). -/
def matchW : List Char → Option Nat
  | 'W' :: '=' :: l => (matchHms l).map (fun n => 2 + n)
  | _ => none

/-- `re.sub`, from the left and without overlap; the first argument is the number of characters of the current match not passed yet. -/
def sub (m : List Char → Option Nat) (new : List Char) : Nat → List Char → List Char
  | _, [] => []
  | k + 1, _ :: l => sub m new k l
  | 0, c :: l => match m (c :: l) with
    | none => c :: sub m new 0 l
    | some n => new ++ sub m new (n - 1) l

/-- The message of a reservation that loses resources (oar/kao/meta_sched.py:340-343). -/
def fewer (msg : List Char) (nb : Nat) : List Char := sub matchR (txt "R=" ++ str nb) 0 msg

/-- The message of a reservation whose walltime is reduced at its launching (oar/kao/meta_sched.py:598-602). -/
def shorter (msg : List Char) (w : Int) : List Char := sub matchW (txt "W=" ++ durationToSql w) 0 msg

/-- What happens to the message of a job. -/
inductive Ev
  /-- A round of its queue gives it a date (oar/kao/kamelot.py:104-141: the walltime has the security time, oar/lib/job_handling.py:315, 332); the karma is present with the fair sharing. -/
  | placed (start : Int) (nb : Nat) (karma : Option (List Char))
  /-- It is an advance reservation accepted (oar/kao/meta_sched.py:378-472): the walltime has the security time. -/
  | accepted (start : Int) (nb : Nat)
  /-- A round finds it between its launching and its end (oar/kao/meta_sched.py:133-138; oar/lib/job_handling.py:1252-1290): neither walltime nor karma are set. -/
  | current (start : Int) (nb : Nat)
  /-- The reservation loses resources (oar/kao/meta_sched.py:323-343). -/
  | lost (nb : Nat)
  /-- The reservation is launched late (oar/kao/meta_sched.py:575-602). -/
  | late (wall : Int)
  deriving DecidableEq

/-- The effect of an event on the row of the job, whose walltime is `wall` and where `sec` is the security time. -/
def step (wall sec : Int) (r : Row) : Ev → Row
  | .placed st nb k => ((save [r] [⟨r.id, st, nb, some (wall + sec), k⟩]).head?).getD r
  | .accepted st nb => ((save [r] [⟨r.id, st, nb, some (wall + sec), none⟩]).head?).getD r
  | .current st nb => ((save [r] [⟨r.id, st, nb, none, none⟩]).head?).getD r
  | .lost nb => { r with message := fewer r.message nb }
  | .late w => { r with message := shorter r.message w }

/-- `LIKE '%Karma%'` (oar/lib/accounting.py:340-342); the comparison distinguishes the cases, as with PostgreSQL. -/
def mentions : List Char → Bool
  | [] => false
  | c :: l => (txt "Karma").isPrefixOf (c :: l) || mentions l

/-- The row of the last date, the first one when several have it: the order of rows of the same date is not specified. -/
def latest : List Row → Option Row
  | [] => none
  | r :: l => match latest l with
    | none => some r
    | some q => if q.start > r.start then some q else some r

/-- Models `get_last_project_karma` (oar/lib/accounting.py:332-349), for names without quote: the message found, the empty text otherwise. -/
def lastKarma (rows : List Row) (user project : List Char) (date : Int) : List Char :=
  match latest (rows.filter (fun r => r.user = user ∧ mentions r.message = true ∧ r.project = project ∧ r.start < date)) with
  | none => []
  | some r => r.message

/-- `\s`, for ASCII characters. -/
def blank (c : Char) : Bool := c = ' ' || c = '\t' || c = '\n' || c = '\r'

/-- The match of `(\d+\.\d+)`: the group. -/
def decimalAt (l : List Char) : Option (List Char) :=
  match l.takeWhile Char.isDigit, l.dropWhile Char.isDigit with
  | [], _ => none
  | a, '.' :: l => if l.takeWhile Char.isDigit = [] then none else some (a ++ '.' :: l.takeWhile Char.isDigit)
  | _, _ => none

/-- The match of `\s*\=\s*(\d+\.\d+)`: the group. -/
def equalAt (l : List Char) : Option (List Char) :=
  match l.dropWhile blank with
  | '=' :: l => decimalAt (l.dropWhile blank)
  | _ => none

/-- The match of `Karma\s*\=\s*(\d+\.\d+)` at the beginning of a text: the group. -/
def karmaAt : List Char → Option (List Char)
  | 'K' :: 'a' :: 'r' :: 'm' :: 'a' :: l => equalAt l
  | _ => none

/-- The karma printed by `oarstat --accounting` (oar/cli/oarstat.py:426-429): the last match in the text, since `.*` is greedy; for texts of one line. -/
def karmaOf : List Char → Option (List Char)
  | [] => none
  | c :: l => (karmaOf l).orElse (fun _ => karmaAt (c :: l))

end Oar.Messages
