import Verif.Pages

/-!
# Specification of the lists read page by page

`listed k i`: the row of identifier `i` belongs to the list at the request number `k`.
-/

namespace Oar.Pages.Spec

open Oar.Api Oar.Pages

/-- The resource `i` is in the list of the resources, restricted or not to an address. -/
def ResourceListed (addr : Option String) (rows : List Res) (i : Nat) : Prop :=
  ∃ r ∈ rows, r.id = i ∧ (addr = none ∨ addr = some r.address)

/-- The resource `rid` is or was assigned to the job `i`. -/
def HadResource (rid : Nat) (db : Db) (i : Nat) : Prop :=
  ∃ j ∈ db.jobs, j.id = i ∧ ∃ m ∈ db.molds, m.job = i ∧ ∃ a ∈ db.assigned, a.mold = m.id ∧ a.rid = rid

/-- The job `i` satisfies the filters of the list of jobs (C58). -/
def JobListed (f : Filter) (db : Db) (i : Nat) : Prop := ∃ j ∈ jobsForUser db f, j.id = i

/-- No row leaves the list during the reading. -/
def NoneLeaves (listed : Nat → Nat → Prop) : Prop := ∀ k i, listed k i → listed (k + 1) i

/-- A row that was not in the list at a request and is there later comes after all the rows of that request: a new row, with a new identifier. -/
def OnlyNewOnes (listed : Nat → Nat → Prop) : Prop := ∀ j k i, j < k → listed k i → ¬ listed j i → ∀ i', listed j i' → i' < i

/-- What a client takes for the end of the list: an error 404, or a page that is not full. -/
def Ended {α : Type} (limit : Nat) : Option (Page α) → Prop
  | none => True
  | some p => p.items.length < limit

end Oar.Pages.Spec
