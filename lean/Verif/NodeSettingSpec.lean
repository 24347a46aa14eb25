import Verif.NodeSetting

/-!
# Specification for oarnodesetting (C82)
-/

namespace Oar.NodeSetting

open Oar.Res Oar.Tools

/-- A property the command refuses: bad syntax or a field of the system. -/
def Refused (s : String) : Prop := parseProp s = none ∨ ∃ n v, parseProp s = some (n, v) ∧ n ∈ systemProps

/-- A property the database can store: a column, other than the identifier, with a value of its kind. -/
def Storable (e : World) (s : String) : Prop :=
  ∃ n v, parseProp s = some (n, v) ∧ n ∉ systemProps ∧ n ∈ e.cols ∧ n ≠ "id" ∧ (norm n v).isSome = true

/-- The pairs (name, value) asked, without those refused. -/
def written (ps : List String) : List (String × String) :=
  ps.filterMap (fun s => (parseProp s).filter (fun x => decide (x.1 ∉ systemProps)))

/-- The value of the column `p`: that of the last pair of this name, else the previous one. -/
def lastOf (l : List (String × String)) (p : String) (old : Option String) : Option String :=
  match l.reverse.find? (fun x => x.1 == p) with
  | some x => norm x.1 x.2
  | none => old

/-- The fields of the system of a resource are the same. -/
def SameSystem (r r' : Res) : Prop :=
  r'.id = r.id ∧ r'.state = r.state ∧ r'.finaud = r.finaud ∧ r'.next = r.next ∧ r'.nextFinaud = r.nextFinaud

/-- The tables other than those of the resources are the same. -/
def SameRest (w w' : RDB) : Prop := w'.db = w.db ∧ w'.assigned = w.assigned ∧ w'.molds = w.molds

/-- The row asks for the state `st`. -/
def asking (st : String) (r : Res) : Res := { r with next := st, nextFinaud := false }

/-- The columns of the maintenance hold numbers. -/
def Numbers (r : Res) : Prop :=
  ∃ u l : Int, r.prop "available_upto" = some (intText u) ∧ r.prop "last_available_upto" = some (intText l)

/-- The resource is available until `u`, or in maintenance with `u` kept aside. -/
def Keeps (u : Int) (r : Res) : Prop :=
  r.prop "available_upto" = some (intText u) ∨
  (r.prop "available_upto" = some "0" ∧ r.prop "last_available_upto" = some (intText u))

end Oar.NodeSetting
