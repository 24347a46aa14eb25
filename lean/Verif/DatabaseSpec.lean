import Verif.Database

/-!
# What the configuration says of the database (C115)
-/

namespace Oar.Database.Spec

open Oar.Tools Oar.Config

/-- What the administrator chose: the kind of database, the account, the machine, the port and the name of the database. An empty password means none. -/
structure Account where
  kind : List Char
  login : List Char
  password : List Char
  host : List Char
  port : Nat
  base : List Char
  deriving DecidableEq

/-- The text of a parameter of the configuration. -/
def Says (cfg : List (List Char × Value)) (key : String) (s : List Char) : Prop :=
  ∃ v, cfg.lookup (txt key) = some v ∧ (v = .text s ∨ ∃ n, v = .int n ∧ s = str n)

/-- The configuration describes the account, the read-only one or the other; its type is a text. -/
structure Describes (cfg : List (List Char × Value)) (ro : Bool) (a : Account) : Prop where
  kind : cfg.lookup (txt "DB_TYPE") = some (.text a.kind)
  login : Says cfg (if ro then "DB_BASE_LOGIN_RO" else "DB_BASE_LOGIN") a.login
  password : Says cfg (if ro then "DB_BASE_PASSWD_RO" else "DB_BASE_PASSWD") a.password ∨
    (a.password = [] ∧ ∀ e ∈ cfg, e.1.map Char.toLower ≠ txt (if ro then "db_base_passwd_ro" else "db_base_passwd"))
  host : Says cfg "DB_HOSTNAME" a.host
  port : Says cfg "DB_PORT" (str a.port)
  base : Says cfg "DB_BASE_NAME" a.base

/-- No two names of the configuration differ by the case only. -/
def NoTwin (cfg : List (List Char × Value)) : Prop :=
  (cfg.map (·.1)).Nodup ∧ ∀ e ∈ cfg, ∀ f ∈ cfg, e.1.map Char.toLower = f.1.map Char.toLower → e.1 = f.1

/-- The texts can be written in an address. -/
structure Writable (a : Account) : Prop where
  kind : a.kind ≠ [] ∧ (∀ c ∈ a.kind, c.isAlphanum = true ∨ c = '_' ∨ c = '+') ∧ a.kind.map Char.toLower ≠ txt "sqlite"
  login : ∀ c ∈ a.login, c ≠ ':' ∧ c ≠ '/' ∧ c ≠ '%'
  password : ∀ c ∈ a.password, c ≠ '@' ∧ c ≠ '%'
  host : a.host ≠ [] ∧ a.host.head? ≠ some '[' ∧ ∀ c ∈ a.host, c ≠ ':' ∧ c ≠ '/' ∧ c ≠ '?' ∧ c ≠ '@'
  base : ∀ c ∈ a.base, c ≠ '?' ∧ (a.password = [] → c ≠ '@')

/-- The kinds of PostgreSQL have several names. -/
def dialect (kind : List Char) : List Char :=
  if kind.map Char.toLower ∈ [txt "pg", txt "psql", txt "pgsql", txt "postgresql"] then txt "postgresql" else kind.map Char.toLower

/-- `d` is the hexadecimal digit of the number `i`. -/
def HexDigit (d : Char) (i : Nat) : Prop := "0123456789abcdef".toList[i]? = some d ∨ "0123456789ABCDEF".toList[i]? = some d

end Oar.Database.Spec
