import Verif.Config

/-!
# Model of the access to the database

The address built from the configuration (`oar/lib/configuration.py`) and read by SQLAlchemy (`oar/lib/database.py`). The regular expression of `sqlalchemy.engine.url.make_url` is modelled
with its greedy choices; the escapes `%XX` above 127 (bytes of UTF-8) are left as they are, as is what follows `?`.
-/

namespace Oar.Database

open Oar.Tools Oar.JobTypes Oar.Config

abbrev T := List Char
abbrev Conf := List (T × Value)

/-- `s.lower()` on ASCII letters. -/
def lower (s : T) : T := s.map Char.toLower

/-- Models `get_namespace("DB_")` (oar/lib/configuration.py:217-256): the parameters whose name begins by `DB_`, without it and in lower case. -/
def namespaceDB (cfg : Conf) : Conf :=
  cfg.foldl (fun d e => if (txt "DB_").isPrefixOf e.1 then dictSet (lower (e.1.drop 3)) e.2 d else d) []

/-- `"{}".format(value)`; a floating-point number is left as it was written. -/
def shown : Value → T
  | .text s => s
  | .int n => str n
  | .float s => s
  | .null => txt "None"

/-- What `get_sqlalchemy_uri` does: an address, `InvalidConfiguration` for a missing parameter, or another exception. -/
inductive Out where
  | url (s : T)
  | missing (key : T)
  | raises
  deriving DecidableEq

/-- `{key}` of a format: the text of the parameter, `KeyError` when it is missing. -/
def field (c : Conf) (key : String) (k : T → Out) : Out :=
  match c.lookup (txt key) with
  | none => .missing (txt key)
  | some v => k (shown v)

/-- The names of the parameters of the account (oar/lib/configuration.py:189-194). -/
def loginKey (ro : Bool) : String := if ro then "base_login_ro" else "base_login"
def passwdKey (ro : Bool) : String := if ro then "base_passwd_ro" else "base_passwd"

/-- The driver: the names of PostgreSQL are replaced (oar/lib/configuration.py:200-201). -/
def driver (t : T) : T := if t = txt "pg" ∨ t = txt "psql" ∨ t = txt "pgsql" then txt "postgresql" else t

/-- The address of a server (oar/lib/configuration.py:202-207). -/
def serverUri (c : Conf) (t : T) (ro : Bool) : Out :=
  field c (loginKey ro) fun login =>
  let auth : T := if (c.lookup (txt (passwdKey ro))).getD (.text []) ≠ .text [] then login ++ ':' :: shown ((c.lookup (txt (passwdKey ro))).getD (.text [])) else login
  field c "hostname" fun host => field c "port" fun port => field c "base_name" fun base =>
  .url (driver t ++ txt "://" ++ auth ++ '@' :: host ++ ':' :: port ++ '/' :: base)

/-- Models `get_sqlalchemy_uri` (oar/lib/configuration.py:188-210). A type that is not a text has no `lower`. -/
def uri (cfg : Conf) (ro : Bool) : Out :=
  let c := namespaceDB cfg
  match c.lookup (txt "type") with
  | none => .missing (txt "type")
  | some (.text t) =>
    if lower t = txt "sqlite" then field c "base_file" fun f => .url (txt "sqlite" ++ txt ":///" ++ f)
    else serverUri c (lower t) ro
  | some _ => .raises

/-! ## SQLAlchemy -/

/-- What SQLAlchemy reads. -/
structure Url where
  name : T
  user : Option T
  password : Option T
  host : Option T
  port : Option Int
  base : Option T
  query : Option T
  deriving DecidableEq

/-- The value of a hexadecimal digit. -/
def hexVal (c : Char) : Option Nat :=
  if c.isDigit then some (c.toNat - 48)
  else if 'a' ≤ c ∧ c ≤ 'f' then some (c.toNat - 87)
  else if 'A' ≤ c ∧ c ≤ 'F' then some (c.toNat - 55)
  else none

/-- The character of an escape `%ab` below 128. -/
def escape (a b : Char) : Option Char :=
  match hexVal a, hexVal b with
  | some x, some y => if 16 * x + y < 128 then some (Char.ofNat (16 * x + y)) else none
  | _, _ => none

/-- `urllib.parse.unquote`. -/
def unquote : T → T
  | [] => []
  | [a] => [a]
  | [a, b] => [a, b]
  | c :: a :: b :: r =>
    if c = '%' then
      match escape a b with
      | some x => x :: unquote r
      | none => c :: unquote (a :: b :: r)
    else c :: unquote (a :: b :: r)

/-- A character of `[\w\+]`. -/
def nameChar (c : Char) : Bool := c.isAlphanum || c == '_' || c == '+'

def notIn (l : List Char) (c : Char) : Bool := !l.contains c

/-- `(?:(?P<username>[^:/]*)(?::(?P<password>[^@]*))?@)?`: the user, the password and the rest. -/
def auth (r : T) : Option T × Option T × T :=
  let u := r.takeWhile (notIn [':', '/'])
  let a := r.dropWhile (notIn [':', '/'])
  match (if a.head? = some ':' then cut '@' a.tail else none) with
  | some (p, rest) => (some u, some p, rest)
  | none =>
    match cut '@' u.reverse with
    | some (h, l) => (some l.reverse, none, h.reverse ++ a)
    | none => (none, none, r)

/-- `(?P<ipv4host>[^/:\?]+)`. -/
def host4 (r : T) : Option T × T :=
  (if r.takeWhile (notIn ['/', ':', '?']) = [] then none else some (r.takeWhile (notIn ['/', ':', '?'])), r.dropWhile (notIn ['/', ':', '?']))

/-- `(?:\[(?P<ipv6host>[^/\?]+)\]|(?P<ipv4host>[^/:\?]+))?`: the host and the rest. -/
def host (r : T) : Option T × T :=
  if r.head? = some '[' then
    match cut ']' (r.tail.takeWhile (notIn ['/', '?'])).reverse with
    | some (a, b) => if b = [] then host4 r else (some b.reverse, a.reverse ++ r.tail.dropWhile (notIn ['/', '?']))
    | none => host4 r
  else host4 r

/-- An optional part introduced by a character: its text, up to one of the characters of `stop`, and the rest. -/
def part (c : Char) (stop : List Char) (r : T) : Option T × T :=
  if r.head? = some c then (some (r.tail.takeWhile (notIn stop)), r.tail.dropWhile (notIn stop)) else (none, r)

/-- The port is an integer, or the exception of `int`. -/
def portOf : Option T → Option (Option Int)
  | none => some none
  | some p => (pyInt p).map some

/-- What is after `name://`. -/
def rest (name r : T) : Option Url :=
  let (user, password, r1) := auth r
  let (h, r2) := host r1
  let (p, r3) := part ':' ['/', '?'] r2
  let (base, r4) := part '/' ['?'] r3
  let (query, _) := part '?' [] r4
  (portOf p).map fun port => ⟨name, user.map unquote, password.map unquote, h, port, base, query⟩

/-- Models `make_url` of SQLAlchemy, called by `get_engine` (oar/lib/database.py:105-111); `none`: it raises. -/
def parse (s : T) : Option Url :=
  let name := s.takeWhile nameChar
  let r := s.dropWhile nameChar
  if name = [] then none else if (txt "://").isPrefixOf r then rest name (r.drop 3) else none

/-- The database to which the programs connect; `none`: an exception. -/
def connect (cfg : Conf) (ro : Bool) : Option Url :=
  match uri cfg ro with
  | .url s => parse s
  | _ => none

end Oar.Database
