import Verif.SchedAssign

/-!
# Model of the basic scheduler

`oar/kao/scheduling_basic.py` and the pass of `oar/kao/kamelot_basic.py`, on the timelines of `Verif.Slot`. `none` is an exception.
-/

namespace Oar.Basic

open Oar.Kao Oar.Hierarchy

/-- The loop of `find_first_suitable_contiguous_slots` (oar/kao/scheduling_basic.py:48-54): the windows are tried in order; the
variables keep the values of the last window tried. -/
def searchLoop (ss : SlotSet) (hy : Hy) (groups : List Group) : List (Slot × Slot) → Option (ProcSet × Slot × Slot) → Option (Option (ProcSet × Slot × Slot))
  | [], last => some last
  | (b, e) :: rest, _ =>
    match ss.intersec b.id e.id with
    | none => none
    | some av =>
      match findJobBasic av hy groups with
      | none => none
      | some r => if r.card ≠ 0 then some (some (r, b, e)) else searchLoop ss hy groups rest (some (r, b, e))

/-- Models `find_first_suitable_contiguous_slots` (oar/kao/scheduling_basic.py:33-59). The cache is read and written but does not
change the search, which always begins at the first slot; `job.key_cache[mld_id]` may raise. No window at all: the variable
`slot_begin` has no value. -/
def find (ss : SlotSet) (job : Job) (mld : Mld) (hy : Hy) : Option (ProcSet × Slot × Slot) :=
  if job.keyCache.isEmpty = false ∧ (job.keyCache.lookup mld.id).isNone then none
  else
    match ss.traverseWidth mld.walltime 0 with
    | none => none
    | some cs =>
      match searchLoop ss hy mld.groups cs none with
      | none => none
      | some res => res

/-- The loop over the alternatives (oar/kao/scheduling_basic.py:86-100). -/
def assignLoop (ss : SlotSet) (job : Job) (hy : Hy) : List Mld → Option Best → Option (Option Best)
  | [], best => some best
  | m :: ms, best =>
    match find ss job m hy with
    | none => none
    | some (r, b, _) =>
      match ss.get? b.id with
      | none => none
      | some sl =>
        if sl.b + m.walltime - 1 < bestFinish best then
          match ss.encompassingSlots sl.b (sl.b + m.walltime - 1) 0 with
          | none => none
          | some (l', r') => assignLoop ss job hy ms (some ⟨sl.b, sl.b + m.walltime - 1, r, m, l', r'⟩)
        else assignLoop ss job hy ms best

/-- Models `assign_resources_mld_job_split_slots` (oar/kao/scheduling_basic.py:62-113). Without alternative kept, the empty set is
unpacked as a request: an exception. -/
def assign (ctx : Ctx) (ss : SlotSet) (job : Job) (hy : Hy) : Option (SlotSet × Job) :=
  match ss.get? 1 with
  | none => none
  | some _ =>
    match assignLoop ss job hy job.mlds none with
    | none => none
    | some none => none
    | some (some b) =>
      let job' := { job with moldableId := b.mld.id, resSet := some b.res, startTime := b.start, walltime := some b.mld.walltime }
      match ss.splitSlots ctx b.left b.right job' b.mld.walltime b.res true with
      | none => none
      | some ss' => some (ss', job')

/-- Models `schedule_id_jobs_ct` (oar/kao/scheduling_basic.py:116-146) as called by `schedule_cycle` (oar/kao/kamelot_basic.py:79-81): the
only slot set is `"default"`. The slot built for a container is not kept. The result is the list of the jobs with their assignments. -/
def pass (ctx : Ctx) (hy : Hy) : SlotSet → List Job → Option (SlotSet × List Job)
  | ss, [] => some (ss, [])
  | ss, j :: js =>
    if (j.types.lookup "inner").getD "default" = "default" then
      match assign ctx ss j hy with
      | none => none
      | some (ss', j') => (pass ctx hy ss' js).map (fun x => (x.1, j' :: x.2))
    else none

end Oar.Basic
