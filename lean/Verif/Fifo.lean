import Verif.Hierarchy
import Mathlib.Data.Finset.Lattice.Fold

/-!
# Model of the FIFO scheduler

`oar/kao/kamelot_fifo.py` (`schedule_fifo_cycle`). The waiting jobs are given in the order of their identifiers, as the query
returns them (oar/lib/job_handling.py:117-137), with their requests as read by `get_data_jobs`.
-/

namespace Oar.Fifo

open Oar.Hierarchy

/-- A waiting job: identifier and alternatives (identifier, walltime, groups). -/
structure WJob where
  id : Nat
  rqts : List (Nat × Int × List Group)
  deriving DecidableEq

/-- A job already planned (`get_scheduled_jobs`): its state and its resources. -/
structure PJob where
  state : String
  res : ProcSet
  deriving DecidableEq

/-- `l[:n]` for a Python list: a negative `n` counts from the end. -/
def slice {α : Type} (l : List α) (n : Int) : List α := if n < 0 then l.take (l.length - n.natAbs) else l.take n.toNat

/-- `list(s)` for a ProcSet: its numbers in increasing order. -/
def listOf (s : ProcSet) : List Nat := (List.range (s.sup id + 1)).filter (fun x => decide (x ∈ s))

/-- The choice without hierarchy (oar/kao/kamelot_fifo.py:79-87): the first resources, by number, among those available that satisfy the
constraints. -/
def pick (free : ProcSet) (constraints : ProcSet) (n : Int) : ProcSet :=
  if ((listOf (constraints ∩ free)).length : Int) < n then ∅ else (slice (listOf (constraints ∩ free)) n).toFinset

/-- The choice for a job (oar/kao/kamelot_fifo.py:68-87): identifier of the first alternative and resources. `none` is an exception:
no alternative, no group, no level, unknown level. -/
def choose (hierarchy : Bool) (hy : Hy) (free : ProcSet) (j : WJob) : Option (Nat × ProcSet) :=
  match j.rqts with
  | [] => none
  | (mid, _, groups) :: _ =>
    if hierarchy then (findJobBasic free hy groups).map (fun r => (mid, r))
    else match groups with
      | [] => none
      | g :: _ => match g.levels with
        | [] => none
        | (_, n) :: _ => some (mid, pick free g.constraints n)

/-- The loop over the waiting jobs (oar/kao/kamelot_fifo.py:65-98): it stops at the first job without resources. The result is
the list of the jobs with their alternative and their resources. -/
def loop (hierarchy : Bool) (hy : Hy) : ProcSet → List WJob → Option (List (Nat × Nat × ProcSet))
  | _, [] => some []
  | free, j :: js =>
    match choose hierarchy hy free j with
    | none => none
    | some (mid, r) =>
      if r = ∅ then some []
      else (loop hierarchy hy (free \ r) js).map (fun l => (j.id, mid, r) :: l)

/-- Models `schedule_fifo_cycle` (oar/kao/kamelot_fifo.py:19-107). The resources of the running jobs are read in the attribute
`res_itvs`, which does not exist (`extract_scheduled_jobs` sets `res_set`): an exception. -/
def cycle (hierarchy : Bool) (hy : Hy) (resources : ProcSet) (planned : List PJob) (waiting : List WJob) : Option (List (Nat × Nat × ProcSet)) :=
  if waiting = [] then some []
  else if planned.any (fun j => j.state = "Running") then none
  else loop hierarchy hy resources waiting

end Oar.Fifo
