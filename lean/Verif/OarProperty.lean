import Verif.Tools
import Verif.Cli

/-!
# Model of the command oarproperty

`oar/cli/oarproperty.py` on a PostgreSQL database: the changes of the table of resources are made in one transaction of the connection of
`MigrationContext` (committed at the end or at a `return`, undone by an exception), the changes of the logs and of the requests by
the session, that commits after each renaming. Identifiers are quoted, so names are compared as they are; their truncation after 63 bytes is
left out. The texts of the messages are left out, only their exit values are kept.
-/

namespace Oar.OarProperty

open Oar.Tools
open Oar.Cli (Ret)

/-- The names refused by `check_resource_property` (oar/lib/tools.py:749-778). -/
def systemNames : List String :=
  ["resource_id", "network_address", "state", "state_num", "next_state", "finaud_decision", "next_finaud_decision", "besteffort",
   "desktop_computing", "deploy", "expiry_date", "last_job_date", "available_upto", "last_available_upto", "walltime", "nodes", "type",
   "suspended_jobs", "scheduler_priority", "cpuset", "drain"]

/-- The columns of the class `Resource` (oar/lib/models.py:344-365). -/
def declared : List String :=
  ["resource_id", "type", "network_address", "state", "next_state", "finaud_decision", "next_finaud_decision", "state_num",
   "suspended_jobs", "scheduler_priority", "cpuset", "besteffort", "deploy", "expiry_date", "desktop_computing", "last_job_date",
   "available_upto", "last_available_upto", "drain"]

/-- The type of a column: integer or text. -/
inductive Ty where
  | int
  | varchar
  deriving DecidableEq

/-- The table of resources: its columns, and the value of each resource in each of them. -/
structure Tab where
  cols : List (String × Ty)
  cell : Nat → String → Option String

/-- The names of the columns. -/
def Tab.names (t : Tab) : List String := t.cols.map Prod.fst

/-- The database: the resources, the attributes of `resource_logs` and the resource types of `job_resource_descriptions` (with the
identifiers of their rows). -/
structure DB where
  tab : Tab
  logs : List (Nat × String)
  descs : List (Nat × String)

/-- `ALTER TABLE … DROP COLUMN`; `none`: no such column. -/
def dropCol (t : Tab) (n : String) : Option Tab :=
  if n ∈ t.names then
    some ⟨t.cols.filter (fun c => decide (c.1 ≠ n)), fun r c => if c = n then none else t.cell r c⟩
  else none

/-- `ALTER TABLE … ADD COLUMN` of a nullable column; `none`: the column exists or the name is empty. -/
def addCol (t : Tab) (n : String) (ty : Ty) : Option Tab :=
  if n = "" ∨ n ∈ t.names then none
  else some ⟨t.cols ++ [(n, ty)], fun r c => if c = n then none else t.cell r c⟩

/-- `ALTER TABLE … RENAME COLUMN`; `none`: the column does not exist, or the new one does, or the new name is empty. -/
def renameCol (t : Tab) (o n : String) : Option Tab :=
  if o ∉ t.names ∨ n ∈ t.names ∨ n = "" then none
  else some ⟨t.cols.map (fun c => if c.1 = o then (n, c.2) else c),
    fun r c => if c = n then t.cell r o else if c = o then none else t.cell r c⟩

/-- The renaming of the rows of the logs and of the requests (oar/cli/oarproperty.py:150-160). -/
def renameRows (l : List (Nat × String)) (o n : String) : List (Nat × String) := l.map (fun x => if x.2 = o then (x.1, n) else x)

/-- Models `check_property_name` (oar/cli/oarproperty.py:26-41): whether the name is refused. -/
def refused (n : String) : Bool := !(n.toList.all (fun c => decide (c.toNat < 128))) || decide (n ∈ systemNames)

/-- `str.lstrip()` on ASCII blanks. -/
def lstrip (n : String) : String := String.ofList (n.toList.dropWhile (fun c => c = ' ' || c = '\t' || c = '\n' || c = '\r'))

/-- What the blocks of the command leave: the database (the table is that of the transaction), the exit values, and how it stops. -/
inductive Stop where
  | go
  | ret
  | raised
  deriving DecidableEq

/-- The state between two blocks. -/
structure St where
  db : DB
  exits : List Int := []
  stop : Stop := .go

/-- One property to delete (oar/cli/oarproperty.py:93-99). -/
def delOne (s : St) (n : String) : St :=
  if s.stop ≠ .go then s
  else if refused n then { s with exits := s.exits ++ [0], stop := .ret }
  else
    match dropCol s.db.tab n with
    | none => { s with stop := .raised }
    | some t => { s with db := { s.db with tab := t }, exits := s.exits ++ [0] }

/-- One property to add (oar/cli/oarproperty.py:102-130). `names` are the columns at the beginning of the command; `type(columns[…])` is the class
of a column, never `VARCHAR`. -/
def addOne (names : List String) (varchar : Bool) (s : St) (n : String) : St :=
  if s.stop ≠ .go then s
  else if refused (lstrip n) then { s with exits := s.exits ++ [0], stop := .ret }
  else if lstrip n ∈ names then { s with exits := s.exits ++ [if varchar then 2 else 0] }
  else
    match addCol s.db.tab (lstrip n) (if varchar then .varchar else .int) with
    | none => { s with stop := .raised }
    | some t => { s with db := { s.db with tab := t }, exits := s.exits ++ [0] }

/-- One property to rename (oar/cli/oarproperty.py:133-164). -/
def renOne (names : List String) (s : St) (text : String) : St :=
  if s.stop ≠ .go then s
  else
    match split ',' text.toList with
    | [oc, nc] =>
      let o := String.ofList oc
      let n := String.ofList nc
      if refused o || refused n then { s with exits := s.exits ++ [0], stop := .ret }
      else if o ∉ names then { s with exits := s.exits ++ [0], stop := .ret }
      else if n ∈ names then { s with exits := s.exits ++ [0], stop := .ret }
      else
        match renameCol s.db.tab o n with
        | none => { s with stop := .raised }
        | some t => { s with db := ⟨t, renameRows s.db.logs o n, renameRows s.db.descs o n⟩, exits := s.exits ++ [0] }
    | _ => { s with stop := .raised }

/-- The options that write (oar/cli/oarproperty.py:91-164). -/
structure Args where
  delete : List String := []
  add : List String := []
  varchar : Bool := false
  rename : List String := []

/-- What the command leaves and tells. -/
structure Out where
  db : DB
  ret : Ret
  raised : Bool

/-- The three blocks (oar/cli/oarproperty.py:91-164). -/
def blocks (db : DB) (a : Args) : St :=
  let names := db.tab.names
  a.rename.foldl (renOne names) (a.add.foldl (addOne names a.varchar) (a.delete.foldl delOne { db := db }))

/-- The end of the transaction: an exception gives back the table. -/
def finish (db : DB) (s : St) : Out :=
  if s.stop = .raised then ⟨{ s.db with tab := db.tab }, ⟨s.exits, 0⟩, true⟩ else ⟨s.db, ⟨s.exits, 0⟩, false⟩

/-- Models `oarproperty` (oar/cli/oarproperty.py:49-166) without `--version` and `--list`. -/
def oarproperty (db : DB) (a : Args) : Out := finish db (blocks db a)

/-- The names printed by `--list` (oar/cli/oarproperty.py:81-84). -/
def listed (db : DB) : List String := db.tab.names.filter (fun n => !decide (n ∈ systemNames))

/-- The exit status of the process: 1 for an exception. -/
def status (o : Out) : Int := if o.raised then 1 else (Cli.exitValue o.ret).1

end Oar.OarProperty
