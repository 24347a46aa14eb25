import Verif.Walltime
import Verif.Tools
import Mathlib.Data.Rat.Floor

/-!
# Model of the command `oarwalltime` and of the settings of the walltime changes

`oar/cli/oarwalltime.py`, `oar/lib/walltime.py` (`get_conf`, `get`, and the parts of `request` which read texts), on top of the model of `request` of Walltime. The texts of the messages
are not modelled. The exact value of a Python float is a rational number, its product with the walltime is exact.
-/

namespace Oar.WalltimeCli

open Oar.Tools Oar.Walltime

/-- The value of a setting once the configuration is loaded (oar/lib/configuration.py:162-170, oar/lib/utils.py:148-159), or of an entry of a dictionary. -/
inductive Atom
  | int (n : Int)
  | flt (q : Rat)
  | str (t : List Char)
  deriving DecidableEq

/-- `eval(text)`: `none` is an exception, `some none` a value which is not a dictionary, `some (some d)` a dictionary. -/
abbrev Eval := List Char → Option (Option (List (String × Atom)))

/-- The settings (oar/lib/configuration.py:87-93). -/
structure Settings where
  enabled : Option String
  maxIncrease : Atom
  minForChange : Atom
  forceUsers : Atom
  delayUsers : Atom

/-- `int(x)`: rounds towards zero. -/
def trunc (q : Rat) : Int := if 0 ≤ q then q.floor else q.ceil

/-- The value of the queue in a dictionary (oar/lib/walltime.py:30-33): `value` when there is no entry. -/
def pick (d : List (String × Atom)) (queue : String) (value : Atom) : Atom :=
  if queue ≠ "" ∧ (d.lookup queue).isSome then (d.lookup queue).getD value
  else (d.lookup "_").getD value

/-- The first part of `get_conf` (oar/lib/walltime.py:25-33): the parameter `value` is overwritten at once. `none`: an exception. -/
def raw (ev : Eval) (setting : Atom) (queue : String) : Option Atom :=
  match setting with
  | .str t =>
    if t = [] then some setting
    else match ev t with
      | none => none
      | some none => some setting
      | some (some d) => some (pick d queue setting)
  | v => some v

/-- The end of `get_conf` (oar/lib/walltime.py:35-36): a ratio of the walltime. -/
def scaled (walltime : Option Int) : Atom → Atom
  | .flt q => if walltime.getD 0 ≠ 0 ∧ q ≤ 1 then .int (trunc ((walltime.getD 0 : Rat) * q)) else .flt q
  | x => x

/-- Models `get_conf` (oar/lib/walltime.py:24-38). -/
def getConf (ev : Eval) (setting : Atom) (queue : String) (walltime : Option Int) : Option Atom := (raw ev setting queue).map (scaled walltime)

/-- A limit given to `duration_to_sql` (oar/lib/walltime.py:187-188): a text raises TypeError. It is compared with integers: a maximum is replaced by its integer part. (For a job of
walltime 0 and a maximum between -1 and 0 the integer part would be taken as "no limit".) -/
def number : Atom → Option Rat
  | .int n => some n
  | .flt q => some q
  | .str _ => none

/-- `re.split(r"[,\s]+", s)` (oar/lib/walltime.py:218, 233); the spaces are the ASCII ones. -/
def isSep (c : Char) : Bool := c == ',' || c == ' ' || c == '\t' || c == '\n' || c == '\r' || c == '\x0b' || c == '\x0c'

def splitUsers : Bool → List Char → List (List Char)
  | _, [] => [[]]
  | inSep, c :: cs =>
    if isSep c then (if inSep then splitUsers true cs else [] :: splitUsers true cs)
    else match splitUsers false cs with
      | [] => [[c]]
      | w :: ws => (c :: w) :: ws

/-- The users of a setting: `some none` is "*"; `none` is the exception of `re.split` on a number. -/
def users : Atom → Option (Option (List String))
  | .str t => if t = ['*'] then some none else some (some ((splitUsers false t).map String.ofList))
  | _ => none

/-- The text without its final end of line: `$` matches before it. -/
def chop (t : List Char) : List Char := if t.getLast? = some '\n' then t.dropLast else t

/-- The fields of `^([-+]?)(\d+)(?::(\d+)(?::(\d+))?)?$` and the seconds (oar/lib/walltime.py:190-206; the same expression in oar/cli/oarwalltime.py:39). `none`: no match. -/
def fields (sign : Int) (t : List Char) : Option Asked :=
  match split ':' t with
  | [h] => match pyNat h with
    | some h => some ⟨sign, h * 3600⟩
    | none => none
  | [h, m] => match pyNat h, pyNat m with
    | some h, some m => some ⟨sign, h * 3600 + m * 60⟩
    | _, _ => none
  | [h, m, s] => match pyNat h, pyNat m, pyNat s with
    | some h, some m, some s => some ⟨sign, h * 3600 + m * 60 + s⟩
    | _, _, _ => none
  | _ => none

def parse (t : List Char) : Option Asked :=
  match chop t with
  | '-' :: r => fields (-1) r
  | '+' :: r => fields 1 r
  | r => fields 0 r

/-- Models `request` from its texts (oar/lib/walltime.py:152-347): the settings are read after the checks of the owner and of the state (174-193), the lists of users only when they are
needed (223-252), after the syntax (196-203). `none`: an exception. -/
def requestT (ev : Eval) (st : Settings) (job : Option (WJob × String)) (user : String) (new : List Char) (force delay : Bool) (now : Int) (row : Option Wtc) :
    Option (Answer × Option Wtc) :=
  if st.enabled ≠ some "YES" then some (.disabled, row)
  else match job with
    | none => some (.notFound, row)
    | some (j, queue) =>
      if j.user ≠ user ∧ user ≠ "root" ∧ user ≠ "oar" then some (.forbidden, row)
      else if j.state ≠ "Running" then some (.forbidden, row)
      else match getConf ev st.maxIncrease queue (some j.walltime), getConf ev st.minForChange queue none, getConf ev st.forceUsers queue none, getConf ev st.delayUsers queue none with
        | some vmax, some vmin, some vf, some vd =>
          match number vmin, number vmax with
          | some qmin, some qmax =>
            match parse new with
            | none => some (.badRequest, row)
            | some a =>
              if force ∧ users vf = none then none
              else if (force = true → permitted ((users vf).getD none) user = true) ∧ delay ∧ users vd = none then none
              else some (request ⟨st.enabled, fun _ => qmax.floor, qmin.ceil, (users vf).getD none, (users vd).getD none⟩ (some j) user (some a) force delay now row)
          | _, _ => none
        | _, _, _, _ => none

/-! ## The command -/

/-- The arguments (oar/cli/oarwalltime.py:131-143). -/
structure Args where
  jobId : Option Int
  new : Option (List Char)
  force : Bool := false
  delay : Bool := false
  version : Bool := false

/-- What the database says of the job: its row, its queue, the identifier of its assigned moldable. -/
structure Known where
  job : WJob
  queue : String
  mold : Nat

/-- The codes of the answers (oar/lib/walltime.py:152-347): the first number of the tuple. -/
def code : Answer → Int
  | .disabled => 5
  | .notFound => 4
  | .forbidden => 3
  | .badRequest => 1
  | .accepted => 0

/-- Models `walltime.get` (oar/lib/walltime.py:59-148) followed by the display (oar/cli/oarwalltime.py:43-109), reduced to the exit status; `none`: an exception. The attribute read on the
moldable of a job with an assigned moldable does not exist (oar/lib/walltime.py:77, oar/lib/models.py:414). Otherwise the walltime is 0. -/
def status (ev : Eval) (st : Settings) (known : Option Known) (row : Option Wtc) : Option Int :=
  if st.enabled ≠ some "YES" then some 2
  else match known with
    | none => some 2
    | some k =>
      if k.mold ≠ 0 then none
      else match getConf ev st.maxIncrease k.queue (some (0 - ((row.map (·.granted)).getD 0))), getConf ev st.minForChange k.queue none, getConf ev st.forceUsers k.queue none,
          getConf ev st.delayUsers k.queue none with
        | some vmax, some vmin, some vf, some _ =>
          if k.job.state = "Running" ∧ (number vmin = none ∨ (¬ (0 < (number vmin).getD 0) ∧ number vmax = none)) then none
          else if users vf = none then none
          else some 0
        | _, _, _, _ => none

/-- The user (oar/cli/oarwalltime.py:111-116): `none` is the KeyError. -/
def effective (oardo user : Option String) : Option String := match oardo with
  | some u => some u
  | none => user

/-- Models `oarwalltime` (oar/cli/oarwalltime.py:14-134): the exit status, `none` for an exception, and the row of the job afterwards. `job_id` 0 and an empty walltime are the same as
missing ones. -/
def oarwalltime (ev : Eval) (st : Settings) (oardo user : Option String) (known : Option Known) (now : Int) (row : Option Wtc) (a : Args) : Option Int × Option Wtc :=
  if a.version then (some 0, row)
  else if a.jobId.getD 0 = 0 then (some 1, row)
  else if a.new.getD [] = [] then
    (if a.delay ∨ a.force then (some 1, row) else (status ev st known row, row))
  else if parse (a.new.getD []) = none then (some 1, row)
  else match effective oardo user with
    | none => (none, row)
    | some u =>
      match requestT ev st (known.map (fun k => (k.job, k.queue))) u (a.new.getD []) a.force a.delay now row with
      | none => (none, row)
      | some (ans, row') => (some (code ans), row')

end Oar.WalltimeCli
