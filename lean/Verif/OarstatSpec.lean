import Verif.Tools
import Verif.SqlText

/-!
# Specification of what oarstat shows

Independent of the program.
-/

namespace Oar.Oarstat.Spec

open Oar.Tools

abbrev T := List Char

/-- The seconds of a text `h:m:s`. -/
def readHms (t : T) : Option Nat :=
  match split ':' t with
  | [h, m, s] =>
    match pyNat h, pyNat m, pyNat s with
    | some h, some m, some s => some (3600 * h + 60 * m + s)
    | _, _, _ => none
  | _ => none

/-- The seconds of a text `h:m:s`, `1 day, h:m:s` or `n days, h:m:s`. -/
def readDuration (t : T) : Option Nat :=
  match split ',' t with
  | [a] => readHms a
  | [a, b] =>
    match pyNat (a.takeWhile Char.isDigit), readHms (b.drop 1) with
    | some d, some s => some (86400 * d + s)
    | _, _ => none
  | _ => none

/-- A request: its groups, each with its property and its levels. -/
abbrev Request := List (T × List (T × Int))

/-- The text of a group, as a user writes it. -/
def groupText (g : T × List (T × Int)) : T :=
  (if g.1 = [] then [] else '{' :: g.1 ++ ['}']) ++ g.2.flatMap (fun l => '/' :: l.1 ++ '=' :: str l.2)

/-- The groups separated by a plus sign. -/
def requestText : Request → T
  | [] => []
  | [g] => groupText g
  | g :: r => groupText g ++ '+' :: requestText r

/-- An order of texts, with the empty one first. -/
structure Order (le : T → T → Bool) : Prop where
  total : ∀ a b, le a b = true ∨ le b a = true
  trans : ∀ a b c, le a b = true → le b c = true → le a c = true
  antisymm : ∀ a b, le a b = true → le b a = true → a = b
  empty : ∀ a, le [] a = true

end Oar.Oarstat.Spec
