/-!
# Model of the conversions of `oar/lib/tools.py`

Strings are lists of characters.
-/

namespace Oar.Tools

/-- A string literal as a list of characters. -/
def txt (s : String) : List Char := s.toList

/-- The digit of `d < 10`. -/
def ch (d : Nat) : Char := Char.ofNat (48 + d)

/-- Decimal digits, with fuel. -/
def digF : Nat → Nat → List Char
  | 0, _ => []
  | f + 1, n => if n < 10 then [ch n] else digF f (n / 10) ++ [ch (n % 10)]

/-- `str(n)` for a natural number. -/
def digits (n : Nat) : List Char := digF (n + 1) n

/-- `str(n)` for an integer. -/
def str (n : Int) : List Char := if n < 0 then '-' :: digits n.natAbs else digits n.natAbs

/-- The value of a list of digits. -/
def val (l : List Char) : Nat := l.foldl (fun a c => a * 10 + (c.toNat - 48)) 0

/-- `int(s)` of an unsigned literal; the spaces, underscores and non-ASCII digits accepted by Python are left out. -/
def pyNat (l : List Char) : Option Nat := if l ≠ [] ∧ l.all Char.isDigit then some (val l) else none

/-- `int(s)`; `none`: ValueError. -/
def pyInt : List Char → Option Int
  | '-' :: r => (pyNat r).map (fun n => - (n : Int))
  | '+' :: r => (pyNat r).map (fun n => (n : Int))
  | r => (pyNat r).map (fun n => (n : Int))

/-- `s.split(c)`. -/
def split (c : Char) : List Char → List (List Char)
  | [] => [[]]
  | x :: xs =>
    if x = c then [] :: split c xs
    else match split c xs with
      | [] => [[x]]
      | w :: ws => (x :: w) :: ws

/-- Models `hms_to_duration` (oar/lib/tools.py:680-683), for texts. -/
def hmsToDuration (h m s : List Char) : Option Int :=
  match pyInt h, pyInt m, pyInt s with
  | some h, some m, some s => some (h * 3600 + m * 60 + s)
  | _, _, _ => none

/-- Models `hms_str_to_duration` (oar/lib/tools.py:636-649): the fields after the third one are ignored. -/
def hmsStrToDuration (t : List Char) : Option Int :=
  match split ':' t with
  | [h] => (pyInt h).map (fun h => 3600 * h)
  | [h, m] => match pyInt h, pyInt m with
    | some h, some m => some (3600 * h + 60 * m)
    | _, _ => none
  | h :: m :: s :: _ => match pyInt h, pyInt m, pyInt s with
    | some h, some m, some s => some (3600 * h + 60 * m + s)
    | _, _, _ => none
  | [] => none

/-- Models `duration_to_hms` (oar/lib/tools.py:686-693); `/` and `%` on `Int` by a positive number are those of Python. -/
def durationToHms (t : Int) : Int × Int × Int := (t / 3600, (t - t / 3600 * 3600) / 60, t % 60)

/-- Models `hms_to_sql` (oar/lib/tools.py:674-677). -/
def hmsToSql (h m s : Int) : List Char := str h ++ ':' :: (str m ++ ':' :: str s)

/-- Models `duration_to_sql` (oar/lib/tools.py:696-700). -/
def durationToSql (t : Int) : List Char := hmsToSql (durationToHms t).1 (durationToHms t).2.1 (durationToHms t).2.2

/-- Models `duration_to_sql_signed` (oar/lib/tools.py:703-711). -/
def durationToSqlSigned (t : Int) : List Char :=
  (if t > 0 then ['+'] else if t < 0 then ['-'] else []) ++ durationToSql t.natAbs

/-- Models `sql_to_hms` (oar/lib/tools.py:667-671); `none`: IndexError. -/
def sqlToHms (t : List Char) : Option (List Char × List Char × List Char) :=
  match split ':' t with
  | h :: m :: s :: _ => some (h, m, s)
  | _ => none

/-- Models `sql_to_duration` (oar/lib/tools.py:714-718). -/
def sqlToDuration (t : List Char) : Option Int := (sqlToHms t).bind (fun x => hmsToDuration x.1 x.2.1 x.2.2)

/-- The numbers of `get_duration` (oar/lib/tools.py:721-734), seconds first. -/
def compound : List Nat → Nat → List Nat
  | [], n => [n]
  | d :: ds, n => n % d :: compound ds (n / d)

/-- Models `get_duration` (oar/lib/tools.py:721-734): the pairs (number, unit) printed. -/
def getDuration (n : Nat) : List (Nat × String) :=
  ((compound [60, 60, 24, 7] n).reverse.zip ["wk", "d", "hr", "min", "sec"]).filter (fun p => p.1 ≠ 0)

mutual
/-- The values serialised for the remote executor. -/
inductive PV
  | undef
  | str (s : List Char)
  | bool (b : Bool)
  | num (n : Int)
  | dict (d : PDict)
/-- A dictionary, in the order of insertion. -/
inductive PDict
  | nil
  | cons (k : List Char) (v : PV) (rest : PDict)
end

/-- `v.replace("'", "\\'")`. -/
def escape (s : List Char) : List Char := s.flatMap (fun c => if c = '\'' then ['\\', '\''] else [c])

mutual
/-- A value (oar/lib/tools.py:871-883). -/
def perlV : PV → List Char
  | .undef => txt "undef"
  | .str s => '\'' :: (escape s ++ ['\''])
  | .bool b => if b then ['1'] else ['0']
  | .num n => str n
  | .dict .nil => ['{', '}']
  | .dict (.cons k v r) => (('{' :: (txt "'" ++ k ++ txt "' => " ++ perlV v ++ [','] ++ perlItems r)).dropLast) ++ ['}']
/-- The items of a dictionary, each followed by a comma (oar/lib/tools.py:868-885). -/
def perlItems : PDict → List Char
  | .nil => []
  | .cons k v r => txt "'" ++ k ++ txt "' => " ++ perlV v ++ [','] ++ perlItems r
end

/-- Models `limited_dict2hash_perl` (oar/lib/tools.py:865-886). -/
def perlHash (d : PDict) : List Char := ('{' :: perlItems d).dropLast ++ ['}']

/-- Models `resources2dump_perl` (oar/lib/tools.py:889-893). -/
def perlArray (l : List PDict) : List Char := ('[' :: l.flatMap (fun d => perlHash d ++ [','])).dropLast ++ [']']

end Oar.Tools
