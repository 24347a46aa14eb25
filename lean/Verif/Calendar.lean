import Verif.Quotas
import Mathlib.Data.List.Sort

/-!
# Model of class `Calendar` of `oar/kao/quotas.py` (temporal quotas)
-/

namespace Oar.Quotas

/-- An entry of `self.periodicals`: begin (seconds since the week start), duration, rules id
(oar/kao/quotas.py:157-173). -/
structure Periodical where
  begin_ : Int
  dur : Int
  rulesId : Nat
  deriving DecidableEq, Repr

/-- An entry of `self.oneshots`: begin date, end date, rules id (oar/kao/quotas.py:204-211). -/
structure Oneshot where
  begin_ : Int
  end_ : Int
  rulesId : Nat
  deriving DecidableEq, Repr

/-- One week (oar/kao/quotas.py:80, `7 * 86400`). -/
def week : Int := 7 * 86400

/-- The object `Calendar` (oar/kao/quotas.py:30-112). `periodicals` and `oneshots` are listed in the
order given by `ordered_periodical_ids` / `ordered_oneshot_ids`; `opIndex` and `periodEnd` are the
mutable attributes. `weekOrigin t` is the epoch of the Monday 00:00 (local time) of the week of `t`
(`datetime` computations of l.252-257, not modelled). -/
structure Calendar where
  period : Int
  windowLimit : Int
  periodicals : List Periodical
  oneshots : List Oneshot
  rulesList : List Rules
  opIndex : Nat
  periodEnd : Int
  weekOrigin : Int → Int

/-- Models the loop body of `periodical_fromJson` (oar/kao/quotas.py:152-173): the entries added for one
week day offset `i`. `duration` is a loop variable: an overflowing day shortens it for the following
days too (l.159), hence the returned duration. -/
def addDay (begin_ duration : Int) (rules : Nat) (i : Int) : List Periodical × Int :=
  let t0 := 86400 * i + begin_
  if t0 + duration > week then
    let d0 := (t0 + duration) % week
    ([⟨0, d0, rules⟩, ⟨t0, duration - d0, rules⟩], duration - d0)
  else ([⟨t0, duration, rules⟩], duration)

/-- The `for i in weekdays` loop (oar/kao/quotas.py:153-173). -/
def addDays (begin_ : Int) (rules : Nat) : Int → List Int → List Periodical
  | _, [] => []
  | duration, i :: is =>
    (addDay begin_ duration rules i).1 ++ addDays begin_ rules (addDay begin_ duration rules i).2 is

/-- The duration computed for an hour range `hm0-hm1` (oar/kao/quotas.py:131-138). -/
def hourDuration (begin_ end_ : Int) : Int :=
  if end_ ≠ 0 then end_ - begin_ else 24 * 3600 - begin_

/-- `sorted(range(n), key=begin)` (oar/kao/quotas.py:74-76, 104-106): a stable sort. -/
def sortPeriodicals (l : List Periodical) : List Periodical :=
  l.mergeSort (fun a b => decide (a.begin_ ≤ b.begin_))

/-- The `while (t < 7 * 86400) and (i < nb_per)` loop that fills the gaps with the default rules
(oar/kao/quotas.py:81-94); returns the added entries and the final `t`. -/
def fillLoop (default : Nat) : Int → List Periodical → List Periodical × Int
  | t, [] => ([], t)
  | t, p :: ps =>
    if t < week then
      let (rest, t') := fillLoop default (p.begin_ + p.dur) ps
      ((if t ≠ p.begin_ then [⟨t, p.begin_ - t, default⟩] else []) ++ rest, t')
    else ([], t)

/-- The construction of the ordered periodicals, with an optional default
(oar/kao/quotas.py:67-106). -/
def buildPeriodicals (ps : List Periodical) (default : Option Nat) : List Periodical :=
  let ordered := sortPeriodicals ps
  match default with
  | none => ordered
  | some d =>
    let (added, t) := fillLoop d 0 ordered
    sortPeriodicals (ps ++ added ++ if t ≠ week then [⟨t, week - t, d⟩] else [])

/-- Models `check_periodicals` (oar/kao/quotas.py:214-223); `true` for contiguous. With no periodical
the real code raises (variable `i` unbound); the model answers `false`. -/
def checkPeriodicals (ps : List Periodical) : Bool :=
  go 0 ps
where
  /-- The `for` loop of `check_periodicals`, with the running date `t`. -/
  go (t : Int) : List Periodical → Bool
    | [] => decide (t = week)
    | p :: ps => if p.begin_ ≠ t then false else go (p.begin_ + p.dur) ps

/-- Models `oneshot_at` (oar/kao/quotas.py:225-248): `(remaining_duration, rules_id)`; a null
remaining duration means that no one-shot applies. -/
def oneshotAt (t premaining : Int) (prules : Nat) : List Oneshot → Int × Option Nat
  | [] => (0, none)
  | o :: os =>
    if o.begin_ ≤ t ∧ t ≤ o.end_ then (o.end_ - t, some o.rulesId)
    else if t < o.begin_ ∧ o.begin_ < t + premaining then (o.begin_ - t, some prules)
    else oneshotAt t premaining prules os

/-- The search loop of `periodical_rules_at` (oar/kao/quotas.py:262-271): the index of the first entry with
`begin >= t and t <= end`, or the last index when there is none. -/
def findIndex (t : Int) : List Periodical → Nat → Nat
  | [], i => i - 1
  | p :: ps, i =>
    if p.begin_ ≥ t ∧ t ≤ p.begin_ + p.dur - 1 then i else findIndex t ps (i + 1)

/-- Models `periodical_rules_at` (oar/kao/quotas.py:250-279). `none`: no periodical at all (the loop
variable is unbound). -/
def periodicalRulesAt (c : Calendar) (t : Int) : Option (Calendar × Nat × Int) :=
  let origin := c.weekOrigin t
  let i := findIndex (t - origin) c.periodicals 0
  match c.periodicals[i]? with
  | none => none
  | some p =>
    some ({ c with periodEnd := origin + c.period, opIndex := i }, p.rulesId, p.dur - (t - origin))

/-- The common tail of `rules_at` and `next_rules`: apply a one-shot if any
(oar/kao/quotas.py:286-293, 306-313). -/
def applyOneshot (c : Calendar) (t : Int) (rid : Nat) (rem : Int) : Nat × Int :=
  match oneshotAt t rem rid c.oneshots with
  | (orem, some orid) => if orem ≠ 0 then (orid, orem) else (rid, rem)
  | (_, none) => (rid, rem)

/-- Models `rules_at` (oar/kao/quotas.py:281-293). -/
def rulesAt (c : Calendar) (t : Int) : Option (Calendar × Nat × Int) :=
  match periodicalRulesAt c t with
  | none => none
  | some (c', rid, rem) => some (c', applyOneshot c' t rid rem)

/-- Models `next_rules` (oar/kao/quotas.py:295-313). The answer `(None, 0)` past the end of the period is
`(none, 0)`. `none` overall: no periodical (`% 0`). -/
def nextRules (c : Calendar) (t : Int) : Option (Calendar × Option Nat × Int) :=
  if t ≥ c.periodEnd then some (c, none, 0)
  else
    let i := (c.opIndex + 1) % c.periodicals.length
    match c.periodicals[i]? with
    | none => none
    | some p =>
      let (rid, rem) := applyOneshot c t p.rulesId p.dur
      some ({ c with opIndex := i }, some rid, rem)

end Oar.Quotas
