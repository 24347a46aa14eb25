import Verif.Calendar
import Verif.Tools

/-!
# Model of the loading of the file of the quotas (`oar/kao/quotas.py`)

What is not modelled: the reading of the JSON text itself (`simplejson`), the exponents, infinities and digit separators accepted by `float`, floats out of the range of the normal
numbers, and the parsing of the dates of the one-shot periods (a parameter, `none` for a refused date).
-/

namespace Oar.QuotasFile

open Oar.Tools Oar.Quotas

/-- A text. -/
abbrev T := List Char

/-! ## Floats -/

/-- A decimal number as written: sign, digits without the point, number of digits after the point. -/
structure Dec where
  neg : Bool
  m : Nat
  places : Nat
  deriving DecidableEq, Repr

/-- A float: sign and absolute value `num / den`. -/
structure F where
  neg : Bool
  num : Nat
  den : Nat
  deriving DecidableEq, Repr

/-- The binary exponent of `p / q`: the largest `e` with `2 ^ e ≤ p / q` (IEEE 754, used by `float` and `*` at oar/kao/quotas.py:803-814). -/
def expo (p q : Nat) : Int :=
  let s : Int := (p.log2 : Int) - q.log2
  if q * 2 ^ s.toNat ≤ p * 2 ^ (-s).toNat then s else s - 1

/-- Rounding of an integer quotient, half to even (IEEE 754). -/
def roundDiv (a b : Nat) : Nat :=
  if b < 2 * (a % b) ∨ (2 * (a % b) = b ∧ (a / b) % 2 = 1) then a / b + 1 else a / b

/-- The nearest float (53 significant bits) of `p / q` (IEEE 754 binary64, without bounds on the exponent); the answer is a fraction. -/
def rnd (p q : Nat) : Nat × Nat :=
  if p = 0 then (0, 1)
  else
    let k : Int := 52 - expo p q
    let m := roundDiv (p * 2 ^ k.toNat) (q * 2 ^ (-k).toNat)
    (m * 2 ^ (-k).toNat, 2 ^ k.toNat)

/-- The float of a decimal number: `float("0.29")`, or the JSON number `0.29` (oar/kao/quotas.py:803, 808, 812). -/
def toF (d : Dec) : F := ⟨d.neg, (rnd d.m (10 ^ d.places)).1, (rnd d.m (10 ^ d.places)).2⟩

/-- The float of an integer (`c * v` with `v = all_value`, oar/kao/quotas.py:813). -/
def ofInt (n : Int) : F := ⟨decide (n < 0), (rnd n.natAbs 1).1, (rnd n.natAbs 1).2⟩

/-- The product of two floats (oar/kao/quotas.py:813). -/
def mulF (x y : F) : F := ⟨x.neg != y.neg, (rnd (x.num * y.num) (x.den * y.den)).1, (rnd (x.num * y.num) (x.den * y.den)).2⟩

/-- `int(f)` (oar/kao/quotas.py:814): truncation towards zero. -/
def trunc (x : F) : Int := if x.neg then - ((x.num / x.den : Nat) : Int) else ((x.num / x.den : Nat) : Int)

/-- A blank character, as for `str.strip` and `str.split` (ASCII only). -/
def blank (c : Char) : Bool := c == ' ' || c == '\t' || c == '\n' || c == '\r' || c == '\x0b' || c == '\x0c'

/-- `float` ignores the blanks around the number. -/
def strip (t : T) : T := ((t.dropWhile blank).reverse.dropWhile blank).reverse

/-- The unsigned part of `float(text)`: digits with at most one point, and one digit at least. -/
def pyUFloat (neg : Bool) (t : T) : Option Dec :=
  match split '.' t with
  | [a] => (pyNat a).map (fun n => ⟨neg, n, 0⟩)
  | [a, b] => (pyNat (a ++ b)).map (fun n => ⟨neg, n, b.length⟩)
  | _ => none

/-- `float(text)` (oar/kao/quotas.py:803, 808, 812); `none`: ValueError. -/
def pyFloat (t : T) : Option Dec :=
  match strip t with
  | '-' :: r => pyUFloat true r
  | '+' :: r => pyUFloat false r
  | r => pyUFloat false r

/-! ## Rules -/

/-- A JSON value of a limit: an integer, another number, or a text. -/
inductive Val
  | int (n : Int)
  | dec (d : Dec)
  | text (t : T)
  deriving DecidableEq, Repr

/-- Models `alphanum_to_int` (oar/kao/quotas.py:797-814), `all` being `all_value`. `none`: an exception is raised (`c * None` included). -/
def alphanum (all : Option Int) : Val → Option Int
  | .int n => some n
  | .dec d => some (trunc (toF d))
  | .text t =>
    match pyFloat t with
    | some d => some (trunc (toF d))
    | none =>
      if '*' ∈ t then
        match split '*' t with
        | [c, v] =>
          match pyFloat c with
          | none => none
          | some c =>
            if v = txt "ALL" then all.map (fun a => trunc (mulF (toF c) (ofInt a)))
            else (pyFloat v).map (fun v => trunc (mulF (toF c) (toF v)))
        | _ => none
      else if t = txt "ALL" then all
      else none

/-- The value of a rule: a JSON list, or a value alone. -/
inductive Lim
  | list (l : List Val)
  | one (v : Val)
  deriving DecidableEq, Repr

/-- `v[0], v[1], v[2]` (oar/kao/quotas.py:819-821): a text is indexed too (its characters), a number is not. -/
def Lim.items : Lim → List Val
  | .list l => l
  | .one (.text t) => t.map (fun c => .text [c])
  | .one _ => []

/-- A JSON object of rules: key text and value, in the order of the file. -/
abbrev RuleSet := List (T × Lim)

/-- Models the body of the loop of `quotas_rules_fromJson` (oar/kao/quotas.py:817-822): the fields of the key and the three limits, the third in seconds. -/
def ruleOf (all : Option Int) (r : T × Lim) : Option (List T × Cnt) :=
  match r.2.items with
  | a :: b :: c :: _ =>
    match alphanum all a, alphanum all b, alphanum all c with
    | some a, some b, some c => some (split ',' r.1, ⟨a, b, 3600 * c⟩)
    | _, _, _ => none
  | _ => none

/-- Models `quotas_rules_fromJson` (oar/kao/quotas.py:795-823). `none`: an exception is raised. -/
def rulesOf (all : Option Int) (rs : RuleSet) : Option (List (List T × Cnt)) := rs.mapM (ruleOf all)

/-- Models the use of the loaded rules by `init_rule_tree` (oar/kao/quotas.py:612-638), called by each `Quotas(...)` and `set_rules`: a key must have four fields
(`queue, project, job_type, user = fields`). `none`: ValueError. -/
def keyed (rs : List (List T × Cnt)) : Option Rules :=
  rs.mapM (fun r => match r.1 with
    | [q, p, t, u] => some (⟨String.ofList q, String.ofList p, String.ofList t, String.ofList u⟩, r.2)
    | _ => none)

/-! ## Periods -/

/-- `text.split()`: the non-empty words. -/
def words (t : T) : List T := (split ' ' (t.map (fun c => if blank c then ' ' else c))).filter (fun w => w ≠ [])

/-- `_day2week_offset` (oar/kao/quotas.py:16-24). -/
def dayOffset : List (T × Int) :=
  [(txt "mon", 0), (txt "tue", 1), (txt "wed", 2), (txt "thu", 3), (txt "fri", 4), (txt "sat", 5), (txt "sun", 6)]

/-- `_day2week_offset[d]`; `none`: KeyError. -/
def day (t : T) : Option Int := dayOffset.lookup t

/-- The days of the range `range(d0, d1 + 1)` (oar/kao/quotas.py:153). -/
def dayRange (d0 d1 : Int) : List Int := (List.range (d1 + 1 - d0).toNat).map (fun i : Nat => d0 + (i : Int))

/-- The begin and the duration of the hours (oar/kao/quotas.py:127-139). -/
def hours (hm2 : T) : Option (Int × Int) :=
  if hm2 = txt "*" then some (0, 24 * 3600)
  else match split '-' hm2 with
    | [a, b] =>
      match hmsStrToDuration a, hmsStrToDuration b with
      | some b0, some e0 => some (b0, hourDuration b0 e0)
      | _, _ => none
    | _ => none

/-- The days of an entry and the duration, changed for a range of whole days (oar/kao/quotas.py:140-155). -/
def days (hm2 wday : T) (duration : Int) : Option (List Int × Int) :=
  if wday = txt "*" then some ((List.range 7).map (fun i : Nat => (i : Int)), duration)
  else if '-' ∈ wday then
    match split '-' wday with
    | [a, b] =>
      match day a, day b with
      | some d0, some d1 =>
        if hm2 = txt "*" then some ([d0], 86400 * ((if d0 > d1 then d1 + 7 else d1) - d0 + 1))
        else some (dayRange d0 d1, duration)
      | _, _ => none
    | _ => none
  else ((split ',' wday).mapM day).map (fun l => (l, duration))

/-- Models `periodical_fromJson` (oar/kao/quotas.py:115-181) for the text of the period and the id of its rules: the added entries. `none`: the program stops
(`exit(1)` or exception). -/
def periodOf (text : T) (rules : Nat) : Option (List Periodical) :=
  match words text with
  | [hm2, wday, mday, month] =>
    if mday ≠ txt "*" ∨ month ≠ txt "*" then none
    else match hours hm2 with
      | none => none
      | some (b, d) =>
        match days hm2 wday d with
        | none => none
        | some (l, d) => some (addDays b rules d l)
  | _ => none

/-! ## The file -/

/-- An entry of `"periodical"`: its text and the name of its set of rules (the description is not used). -/
structure Period where
  text : T
  name : T
  deriving DecidableEq, Repr

/-- An entry of `"oneshot"`: its dates, the name of its set of rules, its description (`none` when the list has three elements). -/
structure OneshotJ where
  b : T
  e : T
  name : T
  desc : Option T
  deriving DecidableEq, Repr

/-- The JSON object of the file: every object of rules by its name (`"quotas"` included), the periods, the one-shot periods, the job types. -/
structure File where
  sets : List (T × RuleSet)
  periodical : Option (List Period)
  oneshot : Option (List OneshotJ)
  jobTypes : Option (List String)
  deriving DecidableEq, Repr

/-- The attributes of a loaded `Calendar` (oar/kao/quotas.py:30-113): entries in order, name and rules of each rules id. -/
structure Cal where
  periodicals : List Periodical
  oneshots : List Oneshot
  names : List T
  rulesList : List (List (List T × Cnt))
  deriving DecidableEq

/-- The registration of the names of sets of rules, `if p[i] not in self.quotas_rules2id` (oar/kao/quotas.py:53-64): the rules id is the index. -/
def register (names : List T) : List T → List T
  | [] => names
  | n :: ns => if n ∈ names then register names ns else register (names ++ [n]) ns

/-- `self.quotas_rules2id[name]`. -/
def idOf (names : List T) (n : T) : Nat := names.idxOf n

/-- Whether an entry gives the default rules (oar/kao/quotas.py:71). -/
def isDefault (p : Period) : Bool := p.text == txt "* * * *" || p.text == txt "default"

/-- The default rules id: the last one given (oar/kao/quotas.py:69-72). -/
def defaultId (names : List T) (ps : List Period) : Option Nat := ((ps.filter isDefault).getLast?).map (fun p => idOf names p.name)

/-- The entries of the other periods (oar/kao/quotas.py:70-74). -/
def entries (names : List T) : List Period → Option (List Periodical)
  | [] => some []
  | p :: ps =>
    if isDefault p then entries names ps
    else match periodOf p.text (idOf names p.name), entries names ps with
      | some a, some b => some (a ++ b)
      | _, _ => none

/-- Models `oneshot_fromJson` (oar/kao/quotas.py:183-212); the dates are read by `check_reservation` after `":00"` is added. -/
def oneshotOf (date : T → Option Int) (names : List T) (o : OneshotJ) : Option Oneshot :=
  match date (o.b ++ txt ":00"), date (o.e ++ txt ":00"), o.desc with
  | some b, some e, some _ => some ⟨b, e, idOf names o.name⟩
  | _, _, _ => none

/-- `sorted(range(self.nb_oneshots), key=begin)` (oar/kao/quotas.py:111-113). -/
def sortOneshots (l : List Oneshot) : List Oneshot := l.mergeSort (fun a b => decide (a.begin_ ≤ b.begin_))

/-- Models `Calendar.__init__` (oar/kao/quotas.py:31-113). The sets of rules are read without the number of resources (l.60). `none`: the program stops. -/
def calendarOf (date : T → Option Int) (f : File) : Option Cal :=
  let ps := f.periodical.getD []
  let os := f.oneshot.getD []
  let names := register [] (ps.map (·.name) ++ os.map (·.name))
  match names.mapM (fun n => (f.sets.lookup n).bind (rulesOf none)) with
  | none => none
  | some rl =>
    match entries names ps, os.mapM (oneshotOf date names) with
    | some es, some ol => some ⟨buildPeriodicals es (defaultId names ps), sortOneshots ol, names, rl⟩
    | _, _ => none

/-- The class attributes set by the loading (oar/kao/quotas.py:514-518). -/
structure State where
  calendar : Option Cal
  defaultRules : List (List T × Cnt)
  jobTypes : List String
  deriving DecidableEq

/-- Models `load_quotas_rules` (oar/kao/quotas.py:825-883) on the class attributes `st`. `none`: the program stops. -/
def load (date : T → Option Int) (all : Option Int) (f : File) (st : State) : Option State :=
  match (if f.periodical.isSome ∨ f.oneshot.isSome then (calendarOf date f).map some else some st.calendar) with
  | none => none
  | some cal =>
    match (match f.sets.lookup (txt "quotas") with
      | some rs => rulesOf all rs
      | none => some st.defaultRules) with
    | none => none
    | some d => some ⟨cal, d, st.jobTypes ++ f.jobTypes.getD []⟩

end Oar.QuotasFile
