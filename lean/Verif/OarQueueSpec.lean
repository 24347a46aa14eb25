import Verif.OarQueue

/-!
# Specification of oarqueue

Read without the model: a table of queues seen as a function of the name, and what each operation means on it.
-/

namespace Oar.OarQueue

/-- The queue of a name: priority, policy, state. -/
def row (t : List QRow) (n : String) : Option (Int × String × String) :=
  (t.find? (fun q => q.name == n)).map (fun q => (q.priority, q.policy, q.state))

/-- Names are unique. -/
def Unique (t : List QRow) : Prop := (t.map QRow.name).Nodup

/-- The operations of an administrator. -/
inductive Op where
  | enable (n : String)
  | disable (n : String)
  | enableAll
  | disableAll
  | add (n : String) (p : Int) (pol : String)
  | change (n : String) (p : Int) (pol : String)
  | remove (n : String)

/-- The text "name,priority,policy". -/
def csv (n : String) (p : Int) (pol : String) : String :=
  String.ofList (n.toList ++ ',' :: (Tools.str p ++ ',' :: pol.toList))

/-- What is typed. -/
def Op.args : Op → Args
  | .enable n => { enable := n }
  | .disable n => { disable := n }
  | .enableAll => { enableAll := true }
  | .disableAll => { disableAll := true }
  | .add n p pol => { add := csv n p pol }
  | .change n p pol => { change := csv n p pol }
  | .remove n => { remove := n }

/-- The texts can be typed: names are not empty, no comma in the texts separated by commas. -/
def Op.Typed : Op → Prop
  | .enable n => n ≠ ""
  | .disable n => n ≠ ""
  | .enableAll => True
  | .disableAll => True
  | .add n _ pol => ',' ∉ n.toList ∧ ',' ∉ pol.toList
  | .change n _ pol => ',' ∉ n.toList ∧ ',' ∉ pol.toList
  | .remove n => n ≠ ""

/-- The table after the operation: only the queue named changes, and only in the fields of the operation. -/
def Op.want (o : Op) (f : String → Option (Int × String × String)) : String → Option (Int × String × String) := fun m =>
  match o with
  | .enable n => if m = n then (f m).map (fun x => (x.1, x.2.1, "Active")) else f m
  | .disable n => if m = n then (f m).map (fun x => (x.1, x.2.1, "notActive")) else f m
  | .enableAll => (f m).map (fun x => (x.1, x.2.1, "Active"))
  | .disableAll => (f m).map (fun x => (x.1, x.2.1, "notActive"))
  | .add n p pol => if m = n then some (p, pol, "Active") else f m
  | .change n p pol => if m = n then (f m).map (fun x => (p, pol, x.2.2)) else f m
  | .remove n => if m = n then none else f m

/-- An environment of an administrator. -/
def Admin (env : String → Option String) : Prop :=
  ∃ u, env "USER" = some u ∧
    ((env "OARDO_USER" = none ∧ (u = "oar" ∨ u = "root")) ∨ env "OARDO_USER" = some "oar" ∨ env "OARDO_USER" = some "root")

/-- The environment of somebody else. -/
def Other (env : String → Option String) : Prop :=
  ∃ u, env "USER" = some u ∧
    ((env "OARDO_USER" = none ∧ u ≠ "oar" ∧ u ≠ "root") ∨ ∃ v, env "OARDO_USER" = some v ∧ v ≠ "oar" ∧ v ≠ "root")

end Oar.OarQueue
