import Verif.Oarnodes

/-!
# What oarnodes should show (C94)
-/

namespace Oar.Oarnodes.Spec

open Oar.Oarnodes

/-- A job in this state uses its resources. -/
def Uses (state : String) : Prop := state ∈ ["toLaunch", "Launching", "Running", "Finishing", "Resuming"]

instance (s : String) : Decidable (Uses s) := by unfold Uses; infer_instance

/-- A resource is used by a job. -/
def Used (db : DB) (r : Res) : Prop := ∃ j ∈ db.jobs, Uses j.2.1 ∧ r.id ∈ j.2.2

instance (db : DB) (r : Res) : Decidable (Used db r) := by unfold Used; infer_instance

/-- A resource is free: alive and not used. -/
def Free (db : DB) (r : Res) : Prop := r.state = "Alive" ∧ ¬ Used db r

instance (db : DB) (r : Res) : Decidable (Free db r) := by unfold Free; infer_instance

/-- The resources of a node. -/
def onNode (db : DB) (h : String) : List Res := db.resources.filter (fun r => decide (r.host = h))

/-- The state to show: an absent resource which can be woken up is in standby. -/
def Shown (now : Int) (r : Res) (s : String) : Prop :=
  (r.state = "Absent" ∧ now ≤ r.upto ∧ s = "Standby") ∨ (¬ (r.state = "Absent" ∧ now ≤ r.upto) ∧ s = r.state)

end Oar.Oarnodes.Spec
