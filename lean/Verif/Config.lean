import Verif.JobTypes

/-!
# Model of the configuration file

`Configuration` (`oar/lib/configuration.py`) and `try_convert_decimal` (`oar/lib/utils.py`). Texts are lists of characters; the digits and the spaces are the ASCII
ones.
-/

namespace Oar.Config

open Oar.Tools Oar.JobTypes

/-- A value: a text, an integer, a floating-point number (its text), or None. -/
inductive Value where
  | text (s : List Char)
  | int (n : Int)
  | float (s : List Char)
  | null
  deriving DecidableEq

/-- `s.strip()` with the characters given by `p`. -/
def stripBy (p : Char → Bool) (s : List Char) : List Char := ((s.dropWhile p).reverse.dropWhile p).reverse

/-- `s.strip()`. -/
def strip (s : List Char) : List Char := stripBy Char.isWhitespace s

/-- `s.strip("\"'")`. -/
def stripQuotes (s : List Char) : List Char := stripBy (fun c => c == '"' || c == '\'') s

/-- Without the sign. -/
def unsign : List Char → List Char
  | '-' :: r => r
  | '+' :: r => r
  | r => r

/-- The exponent of a number, or nothing. -/
def exponent : List Char → Bool
  | [] => true
  | c :: r => (c == 'e' || c == 'E') && !(unsign r).isEmpty && (unsign r).all Char.isDigit

/-- Digits with a point, and an exponent. -/
def numeral (t : List Char) : Bool :=
  match t.dropWhile Char.isDigit with
  | '.' :: r => !(t.takeWhile Char.isDigit ++ r.takeWhile Char.isDigit).isEmpty && exponent (r.dropWhile Char.isDigit)
  | r => !(t.takeWhile Char.isDigit).isEmpty && exponent r

/-- The names of the infinite numbers and of the non-numbers: as `float` reads them (`f`), or as `Decimal` reads them. -/
def special (f : Bool) (t : List Char) : Bool :=
  let l := t.map Char.toLower
  l == txt "inf" || l == txt "infinity" || l == txt "nan" ||
    (!f && ((txt "nan").isPrefixOf l && (l.drop 3).all Char.isDigit || (txt "snan").isPrefixOf l && (l.drop 4).all Char.isDigit))

/-- `Decimal(value)` succeeds: spaces around and underscores anywhere are left out. -/
def isDecimal (s : List Char) : Bool :=
  let t := unsign ((strip s).filter (fun c => c ≠ '_'))
  numeral t || special false t

/-- Every underscore is between two digits. -/
def underscores : List Char → Bool
  | a :: '_' :: b :: r => a.isDigit && b.isDigit && underscores (b :: r)
  | '_' :: _ => false
  | [_, '_'] => false
  | _ :: r => underscores r
  | [] => true

/-- `int(value)`. -/
def toInt (s : List Char) : Option Int := if underscores (strip s) then pyInt ((strip s).filter (fun c => c ≠ '_')) else none

/-- `float(value)` succeeds. -/
def isFloat (s : List Char) : Bool :=
  let t := unsign ((strip s).filter (fun c => c ≠ '_'))
  underscores (strip s) && (numeral t || special true t)

/-- Models `try_convert_decimal` (oar/lib/utils.py:148-159). -/
def convert (s : List Char) : Value :=
  if isDecimal s then
    match toInt s with
    | some n => .int n
    | none => if isFloat s then .float s else .null
  else .text s

/-- `line.split(c, 1)`: the text before and after the first occurrence; `none` when there is none. -/
def cut (c : Char) : List Char → Option (List Char × List Char)
  | [] => none
  | x :: s => if x = c then some ([], s) else (cut c s).map (fun p => (x :: p.1, p.2))

/-- A line without its comment (oar/lib/configuration.py:162-163). -/
def uncomment (line : List Char) : List Char :=
  match cut '#' line with
  | some (a, _) => a
  | none => line

/-- One line (oar/lib/configuration.py:162-170). -/
def loadLine (conf : List (List Char × Value)) (line : List Char) : List (List Char × Value) :=
  match cut '=' (uncomment line) with
  | none => conf
  | some (k, v) => dictSet (strip k) (convert (stripQuotes (strip v))) conf

/-- Models `load_file` (oar/lib/configuration.py:140-186) for a file that can be read, without the option `clear`. -/
def load (cfg : List (List Char × Value)) (file : List Char) : List (List Char × Value) :=
  ((split '\n' file).foldl loadLine []).foldl (fun d p => dictSet p.1 p.2 d) cfg

/-- Models `__init__` (oar/lib/configuration.py:132-135): the argument is overwritten by a copy of the class defaults. -/
def create (classDefaults : List (List Char × Value)) (_ : List (List Char × Value)) : List (List Char × Value) := classDefaults

/-- Models `setdefault_config` (oar/lib/configuration.py:212-215). -/
def setDefaults (cfg defaults : List (List Char × Value)) : List (List Char × Value) :=
  defaults.foldl (fun d p => if (d.lookup p.1).isSome then d else d ++ [p]) cfg

end Oar.Config
