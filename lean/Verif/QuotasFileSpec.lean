import Verif.Tools

/-!
# What an entry of the file of the quotas means (C93), written without the model of the loading
-/

namespace Oar.QuotasFile.Spec

open Oar.Tools

/-- Seconds of a week. -/
def weekSeconds : Int := 604800

/-- The name of a day of the week, 0 for Monday. -/
def dayName (d : Nat) : List Char :=
  match d with
  | 0 => txt "mon"
  | 1 => txt "tue"
  | 2 => txt "wed"
  | 3 => txt "thu"
  | 4 => txt "fri"
  | 5 => txt "sat"
  | _ => txt "sun"

/-- The days of a period: every day, from a day to a day (through Sunday if needed), or a list. -/
inductive Days
  | all
  | range (d0 d1 : Nat)
  | list (ds : List Nat)
  deriving DecidableEq, Repr

/-- The hours of a period: the whole day, or from `h0:m0` to `h1:m1`. -/
inductive Hours
  | all
  | range (h0 m0 h1 m1 : Nat)
  deriving DecidableEq, Repr

/-- A period of the week. -/
structure When where
  hours : Hours
  days : Days
  deriving DecidableEq, Repr

/-- How the days are written: `*`, `mon-fri`, `mon,wed`. -/
def Days.text : Days → List Char
  | .all => txt "*"
  | .range d0 d1 => dayName d0 ++ '-' :: dayName d1
  | .list ds => List.intercalate [','] (ds.map dayName)

/-- How the hours are written: `*` or `8:30-19:0`. -/
def Hours.text : Hours → List Char
  | .all => txt "*"
  | .range h0 m0 h1 m1 => digits h0 ++ ':' :: digits m0 ++ '-' :: digits h1 ++ ':' :: digits m1

/-- How a period is written: `hours days * *`. -/
def When.text (w : When) : List Char := w.hours.text ++ ' ' :: w.days.text ++ txt " * *"

/-- Whether a day of the week (0..6) is one of the days. -/
def Days.has : Days → Int → Prop
  | .all, _ => True
  | .range d0 d1, d => if d0 ≤ d1 then (d0 : Int) ≤ d ∧ d ≤ d1 else (d0 : Int) ≤ d ∨ d ≤ d1
  | .list ds, d => ∃ x ∈ ds, (x : Int) = d

/-- Whether a second of the day is in the hours; an end at `0:0` is the end of the day. -/
def Hours.has : Hours → Int → Prop
  | .all, _ => True
  | .range h0 m0 h1 m1, s =>
    (h0 * 3600 + m0 * 60 : Int) ≤ s ∧ (s < (h1 * 3600 + m1 * 60 : Int) ∨ (h1 * 3600 + m1 * 60 : Int) = 0)

/-- Whether the second `x` of the week (0 is Monday 00:00) is in the period. -/
def When.has (w : When) (x : Int) : Prop := w.days.has (x / 86400) ∧ w.hours.has (x % 86400)

/-- A period inside the days of the calendar: hours in order and inside the day, known days, each listed once, and no range of days through Sunday with hours. -/
def When.Sound (w : When) : Prop :=
  (match w.hours with
    | .all => True
    | .range h0 m0 h1 m1 => h0 * 3600 + m0 * 60 < 86400 ∧ h1 * 3600 + m1 * 60 ≤ 86400 ∧
        (h0 * 3600 + m0 * 60 < h1 * 3600 + m1 * 60 ∨ h1 * 3600 + m1 * 60 = 0)) ∧
  (match w.days with
    | .all => True
    | .range d0 d1 => d0 < 7 ∧ d1 < 7 ∧ (w.hours ≠ .all → d0 ≤ d1)
    | .list ds => ds ≠ [] ∧ ds.Nodup ∧ ∀ d ∈ ds, d < 7)

/-- The name in force at the second `x` of the week: the name of the period which contains it, the default name when there is none. -/
def InForce (ws : List (When × List Char)) (dflt : List Char) (x : Int) (n : List Char) : Prop :=
  (∃ w, (w, n) ∈ ws ∧ w.has x) ∨ ((∀ w ∈ ws, ¬ w.1.has x) ∧ n = dflt)

/-- Two periods have no common second. -/
def Disjoint (a b : When × List Char) : Prop := ∀ x, 0 ≤ x → x < weekSeconds → ¬ (a.1.has x ∧ b.1.has x)

/-- A rule as an administrator thinks of it: four fields, two limits, and a limit in hours. -/
structure Rule where
  queue : List Char
  project : List Char
  type : List Char
  user : List Char
  res : Int
  jobs : Int
  hours : Int
  deriving DecidableEq, Repr

/-- How the key of a rule is written. -/
def Rule.key (r : Rule) : List Char := r.queue ++ ',' :: (r.project ++ ',' :: (r.type ++ ',' :: r.user))

/-- No comma inside a field. -/
def Rule.Sound (r : Rule) : Prop := ∀ x ∈ r.queue ++ r.project ++ r.type ++ r.user, x ≠ ','

end Oar.QuotasFile.Spec
