import Verif.Slot

/-!
# Model of `oar/kao/scheduling.py`

Python exceptions are `none`. Python's in-place mutations of `slots_set`, `job` and of the quotas calendar
become returned values. The plug-in hooks (`job.find`, `job.assign`) are not modelled (taken as absent), nor
are logging and timing records.
-/

namespace Oar.Kao
open Oar.Quotas Oar.Hierarchy

/-- The start of the search (oar/kao/scheduling.py:146-155 and 256-265): the first slot, or the cached slot of
an identical request, or the slot at `min_start_time` (`0` when there is none: the traversal then starts from
the first slot). `none`: `KeyError` on `job.key_cache[mld_id]`. -/
def searchStart (ss : SlotSet) (job : Job) (mld : Mld) (minStart : Int) : Option Nat :=
  match ss.first? with
  | none => none
  | some f =>
    if minStart < 0 then
      if job.keyCache.isEmpty then some f.id
      else
        match job.keyCache.lookup mld.id with
        | none => none
        | some k => some ((ss.cache.lookup k).getD f.id)
    else ss.slotIdAt minStart

/-- The resources available for a job between two slots (oar/kao/scheduling.py:186-189 and 274-279). -/
def available (ss : SlotSet) (job : Job) (left right : Nat) : Option ProcSet :=
  if job.ts ∨ job.ph = 2 then ss.intersecTs job left right else ss.intersec left right

/-- The search loop of `find_first_suitable_contiguous_slots_no_quotas`
(oar/kao/scheduling.py:267-295). -/
def searchLoop (ss : SlotSet) (job : Job) (groups : List Group) (hy : Hy) :
    List (Slot × Slot) → Option (Option (ProcSet × Nat × Nat))
  | [] => some none
  | (b, e) :: rest =>
    match available ss job b.id e.id with
    | none => none
    | some av =>
      match findJob av groups hy with
      | none => none
      | some r => if r.card ≠ 0 then some (some (r, b.id, e.id)) else searchLoop ss job groups hy rest

/-- Models `find_first_suitable_contiguous_slots_no_quotas` (oar/kao/scheduling.py:229-306). Returns the slot
set (its cache may change) and the allocation with its first and last slots, if any. -/
def findNoQuotas (ss : SlotSet) (job : Job) (mld : Mld) (hy : Hy) (minStart : Int) :
    Option (SlotSet × Option (ProcSet × Nat × Nat)) :=
  match searchStart ss job mld minStart with
  | none => none
  | some sid =>
    match ss.traverseWidth mld.walltime sid with
    | none => none
    | some cands =>
      match searchLoop ss job mld.groups hy cands with
      | none => none
      | some none => some (ss, none)
      | some (some (r, l, rr)) =>
        if job.keyCache.isEmpty = false ∧ minStart < 0 then
          match job.keyCache.lookup mld.id with
          | none => none
          | some k => some ({ ss with cache := dictSet k l ss.cache }, some (r, l, rr))
        else some (ss, some (r, l, rr))

/-- The temporal quotas part of one iteration (oar/kao/scheduling.py:164-184): `none` exception,
`some none` "time limit reached, give up", otherwise the new context and slot set. -/
def quotasPrepare (ctx : Ctx) (ss : SlotSet) (b e : Slot) : Option (Option (Ctx × SlotSet)) :=
  match ctx.cal with
  | none => some (some (ctx, ss))
  | some c =>
    if e.e > b.b + c.windowLimit then some none
    else if e.q.rulesId = -1 then
      match rulesAt c e.b with
      | none => none
      | some (c', rid, rem) =>
        match SlotSet.temporalSplit (e.e - e.b + 1).toNat { ctx with cal := some c' } ss e.id rid rem with
        | none => none
        | some (ctx', ss', _, _) => some (some (ctx', ss'))
    else some (some (ctx, ss))

/-- The search loop of `find_first_suitable_contiguous_slots_quotas`
(oar/kao/scheduling.py:157-216), from the slot `cur`. The generators of `traverse_with_width` are interleaved
with the modifications: whether `cur` is the last slot is decided on arrival, and the next slot is read after
the iteration's body. `fuel` bounds the number of visited slots (each visited slot begins later than the
previous one). -/
def quotasLoop (job : Job) (mld : Mld) (hy : Hy) : Nat → Ctx → SlotSet → Slot →
    Option (Ctx × SlotSet × Option (ProcSet × Nat × Nat))
  | 0, _, _, _ => none
  | fuel + 1, ctx, ss, cur =>
    let continue_ (ctx : Ctx) (ss : SlotSet) : Option (Ctx × SlotSet × Option (ProcSet × Nat × Nat)) :=
      if cur.next = 0 then some (ctx, ss, none)
      else
        match ss.get? cur.id with
        | none => none
        | some cur' =>
          match ss.get? cur'.next with
          | none => none
          | some nxt => quotasLoop job mld hy fuel ctx ss nxt
    match ss.endFor mld.walltime cur with
    | none => continue_ ctx ss
    | some e =>
      match quotasPrepare ctx ss cur e with
      | none => none
      | some none => some (ctx, ss, none)
      | some (some (ctx1, ss1)) =>
        match available ss1 job cur.id e.id with
        | none => none
        | some av =>
          match findJob av mld.groups hy with
          | none => none
          | some r =>
            if r.card ≠ 0 then
              match checkSlots ctx1.env ((ss1.traverse cur.id e.id).map Slot.q) job.qjob
                  (r ∩ ctx1.env.defaultItvs).card mld.walltime with
              | none => some (ctx1, ss1, some (r, cur.id, e.id))
              | some _ => continue_ ctx1 ss1
            else continue_ ctx1 ss1

/-- Models `find_first_suitable_contiguous_slots_quotas` (oar/kao/scheduling.py:121-226). -/
def findQuotas (ctx : Ctx) (ss : SlotSet) (job : Job) (mld : Mld) (hy : Hy) (minStart : Int) :
    Option (Ctx × SlotSet × Option (ProcSet × Nat × Nat)) :=
  match searchStart ss job mld minStart with
  | none => none
  | some sid =>
    if mld.walltime > 0 then
      match (if sid ≠ 0 then ss.get? sid else ss.first?) with
      | none => some (ctx, ss, none)
      | some s => quotasLoop job mld hy (ss.end_ - ss.begin_ + 2).toNat ctx ss s
    else none

/-- Models `find_first_suitable_contiguous_slots` (oar/kao/scheduling.py:309-331). -/
def findFirst (ctx : Ctx) (ss : SlotSet) (job : Job) (mld : Mld) (hy : Hy) (minStart : Int) :
    Option (Ctx × SlotSet × Option (ProcSet × Nat × Nat)) :=
  if ctx.env.enabled ∧ job.noQuotas = false then findQuotas ctx ss job mld hy minStart
  else (findNoQuotas ss job mld hy minStart).map (fun x => (ctx, x.1, x.2))

/-- The best alternative so far: `prev_start_time, prev_t_finish, prev_res_set, prev_res_rqt, prev_sid_left,
prev_sid_right` (oar/kao/scheduling.py:354-389). -/
structure Best where
  start : Int
  finish : Int
  res : ProcSet
  mld : Mld
  left : Nat
  right : Nat

/-- The initial `prev_t_finish` (oar/kao/scheduling.py:354). -/
def largeEnough : Int := 2 ^ 32 - 1

/-- The current value of `prev_t_finish`. -/
def bestFinish : Option Best → Int
  | none => largeEnough
  | some b => b.finish

/-- The loop over the moldable alternatives (oar/kao/scheduling.py:363-381). -/
def assignLoop (job : Job) (hy : Hy) (minStart : Int) :
    List Mld → Ctx → SlotSet → Option Best → Nat → Option (Ctx × SlotSet × Option Best × Nat)
  | [], ctx, ss, best, n => some (ctx, ss, best, n)
  | m :: ms, ctx, ss, best, n =>
    match findFirst ctx ss job m hy minStart with
    | none => none
    | some (ctx', ss', none) => assignLoop job hy minStart ms ctx' ss' best (n + 1)
    | some (ctx', ss', some (r, l, _)) =>
      match ss'.get? l with
      | none => none
      | some sl =>
        let finish := sl.b + m.walltime - 1
        if finish < bestFinish best then
          match ss'.encompassingSlots sl.b finish 0 with
          | none => none
          | some (l', r') => assignLoop job hy minStart ms ctx' ss' (some ⟨sl.b, finish, r, m, l', r'⟩) n
        else assignLoop job hy minStart ms ctx' ss' best n

/-- Models `assign_resources_mld_job_split_slots` (oar/kao/scheduling.py:334-404). -/
def assign (ctx : Ctx) (ss : SlotSet) (job : Job) (hy : Hy) (minStart : Int) :
    Option (Ctx × SlotSet × Job) :=
  match ss.get? 1 with
  | none => none
  | some _ =>
    match assignLoop job hy minStart job.mlds ctx ss none 0 with
    | none => none
    | some (ctx', ss', best, n) =>
      if n = job.mlds.length then
        some (ctx', ss', { job with resSet := some ∅, startTime := -1, moldableId := -1 })
      else
        match best with
        | none => none
        | some b =>
          let job' := { job with moldableId := b.mld.id, resSet := some b.res, startTime := b.start,
                                 walltime := some b.mld.walltime }
          match ss'.splitSlots ctx' b.left b.right job' b.mld.walltime b.res true with
          | none => none
          | some ss'' => some (ctx', ss'', job')

/-- State of a scheduling pass: the `Quotas` globals, the dictionary `slots_sets` and the dictionary of jobs. -/
structure Sched where
  ctx : Ctx
  sets : List (String × SlotSet)
  jobs : List Job

/-- `jobs[jid]`. -/
def Sched.job? (st : Sched) (jid : Nat) : Option Job := st.jobs.find? (fun j => j.id == jid)

/-- In place modification of `jobs[job.id]`. -/
def Sched.setJob (st : Sched) (job : Job) : Sched :=
  { st with jobs := st.jobs.map (fun j => if j.id = job.id then job else j) }

/-- The end of a waiting dependency (oar/kao/scheduling.py:453-460): `start_time + walltime`, or `start_time` when the
job has no walltime yet. -/
def Job.stop (jd : Job) : Int :=
  match jd.walltime with
  | some w => jd.startTime + w
  | none => jd.startTime

/-- The dependency loop (oar/kao/scheduling.py:439-469): the minimal start time, or `none` when the job must be
skipped. -/
def depsLoop (st : Sched) : List Dep → Int → Option Int
  | [], m => some m
  | d :: ds, m =>
    if d.state = "Error" then depsLoop st ds m
    else if d.state = "Waiting" then
      match st.job? d.jid with
      | none => none
      | some jd =>
        depsLoop st ds (if jd.stop > m then jd.stop else m)
    else if d.state = "Terminated" ∧ (d.exitCode = some 0 ∨ d.exitCode = none) then depsLoop st ds m
    else none

/-- The slot set in which a job is scheduled (oar/kao/scheduling.py:476-490). -/
def Job.setName (job : Job) : String := (job.types.lookup "inner").getD "default"

/-- The name of the slot set opened by a container job (oar/kao/scheduling.py:506-509). -/
def Job.containerName (job : Job) (v : String) : String := if v = "" then toString job.id else v

/-- `slots_sets[ss_name].split_slots_jobs([j], False)` for the pseudo job of a container
(oar/kao/scheduling.py:512-520, 56-70). A timesharing container raises `AttributeError` (`ts_user` is not set on
the pseudo job) if the job's window meets the timeline. -/
def addContainer (ctx : Ctx) (ss : SlotSet) (job : Job) (start w : Int) (R : ProcSet) : Option SlotSet :=
  if job.ts ∧ ¬ (start + w < ss.begin_) ∧ ¬ (start > ss.end_) then none
  else ss.splitJobs ctx [{ id := 0, startTime := start, walltime := some w, resSet := some R }] false

/-- The container part of one iteration (oar/kao/scheduling.py:505-532). -/
def openContainer (ctx : Ctx) (sets : List (String × SlotSet)) (job : Job) (sec : Int) :
    Option (Ctx × List (String × SlotSet)) :=
  match job.types.lookup "container" with
  | none => some (ctx, sets)
  | some v =>
    match job.walltime, job.resSet with
    | some w, some R =>
      match sets.lookup (job.containerName v) with
      | some ss =>
        match addContainer ctx ss job job.startTime (w - sec) R with
        | none => none
        | some ss' => some (ctx, dictSet (job.containerName v) ss' sets)
      | none =>
        let ss := SlotSet.ofSlot { id := 1, prev := 0, next := 0, itvs := R, b := job.startTime,
                                   e := job.startTime + w - sec, q := freshQuotas ctx }
        match ss.initCalendar ctx with
        | none => none
        | some (ctx', ss') => some (ctx', dictSet (job.containerName v) ss' sets)
    | _, _ => none

/-- One iteration of `schedule_id_jobs_ct` (oar/kao/scheduling.py:436-541). -/
def scheduleOne (hy : Hy) (sec : Int) (st : Sched) (jid : Nat) : Option Sched :=
  match st.job? jid with
  | none => none
  | some job =>
    match depsLoop st job.deps (-1) with
    | none => some (st.setJob { job with startTime := -1 })
    | some minStart =>
      match st.sets.lookup job.setName with
      | none => none
      | some ss =>
        match assign st.ctx ss job hy minStart with
        | none => none
        | some (ctx', ss', job') =>
          match openContainer ctx' (dictSet job.setName ss' st.sets) job' sec with
          | none => none
          | some (ctx'', sets') => some ({ st with ctx := ctx'', sets := sets' }.setJob job')

/-- Models `schedule_id_jobs_ct` (oar/kao/scheduling.py:407-544). -/
def schedule (hy : Hy) (sec : Int) : List Nat → Sched → Option Sched
  | [], st => some st
  | jid :: jids, st =>
    match scheduleOne hy sec st jid with
    | none => none
    | some st' => schedule hy sec jids st'

/-- The first loop of `set_slots_with_prev_scheduled_jobs` (oar/kao/scheduling.py:36-79): opens the containers and
groups the jobs by slot set name. -/
def prevLoop (ctx : Ctx) (sec now : Int) (filterBe onlyBe : Bool) :
    List Job → List (String × SlotSet) → List (String × List Job) →
    Option (List (String × SlotSet) × List (String × List Job))
  | [], sets, groups => some (sets, groups)
  | job :: js, sets, groups =>
    if (filterBe = false ∧ job.hasType "besteffort") ∨ (onlyBe = false ∧ ¬ job.hasType "besteffort") then
      let name := job.setName
      let groups' := dictSet name ((groups.lookup name).getD [] ++ [job]) groups
      match job.types.lookup "container" with
      | none => prevLoop ctx sec now filterBe onlyBe js sets groups'
      | some v =>
        match job.walltime, job.resSet with
        | some w, some R =>
          let ss := (sets.lookup (job.containerName v)).getD (SlotSet.ofItvs ctx ∅ 1)
          match addContainer ctx ss job (if job.startTime < now then now else job.startTime) (w - sec) R with
          | none => none
          | some ss' =>
            prevLoop ctx sec now filterBe onlyBe js (dictSet (job.containerName v) ss' sets) groups'
        | _, _ => none
    else prevLoop ctx sec now filterBe onlyBe js sets groups

/-- The second loop of `set_slots_with_prev_scheduled_jobs` (oar/kao/scheduling.py:81-84). -/
def insertGroups (ctx : Ctx) (groups : List (String × List Job)) :
    List (String × SlotSet) → Option (List (String × SlotSet))
  | [] => some []
  | (n, ss) :: rest =>
    match (match groups.lookup n with
      | none => some ss
      | some js => ss.splitJobs ctx js true), insertGroups ctx groups rest with
    | some ss', some rest' => some ((n, ss') :: rest')
    | _, _ => none

/-- Models `set_slots_with_prev_scheduled_jobs` (oar/kao/scheduling.py:26-84). Simplification: with temporal
quotas a slot set created here would be cut by the calendar; it is left whole. -/
def setPrev (ctx : Ctx) (sets : List (String × SlotSet)) (jobs : List Job) (sec now : Int)
    (filterBe onlyBe : Bool) : Option (List (String × SlotSet)) :=
  match prevLoop ctx sec now filterBe onlyBe jobs sets [("default", [])] with
  | none => none
  | some (sets', groups) => insertGroups ctx groups sets'

end Oar.Kao
