import Verif.Calendar
import Verif.Hierarchy

/-!
# Model of `oar/kao/slot.py`

A `SlotSet` is the dictionary id ↦ `Slot` of the code, as the list of its values in insertion order (the
key of a slot is its `id`). Slots are linked by `prev`/`next` ids, `0` meaning "none".
Python exceptions (`KeyError`, failed `assert`, `AttributeError`) are `none`.
-/

namespace Oar.Kao
open Oar.Quotas

/-- A job dependency `(jid, state, exit_code)` (oar/kao/scheduling.py:441). -/
structure Dep where
  jid : Nat
  state : String
  exitCode : Option Int
  deriving DecidableEq, Repr

/-- One moldable alternative `(moldable_id, walltime, hy_res_rqts)` (oar/lib/job_handling.py:64-72). -/
structure Mld where
  id : Nat
  walltime : Int
  groups : List Hierarchy.Group
  deriving DecidableEq

/-- The attributes of a job used by the scheduler (oar/lib/job_handling.py:75-114, 140-215).
`ph`: 0 NO_PLACEHOLDER, 1 PLACEHOLDER, 2 ALLOW. `walltime` and `resSet` are `none` while the Python
attribute does not exist. `types` and `keyCache` are dictionaries. The plug-in hooks `job.assign` and
`job.find` are not modelled (taken as absent). -/
structure Job where
  id : Nat
  types : List (String × String) := []
  deps : List Dep := []
  mlds : List Mld := []
  keyCache : List (Nat × String) := []
  ts : Bool := false
  tsUser : String := ""
  tsName : String := ""
  ph : Nat := 0
  phName : String := ""
  name : String := ""
  user : String := ""
  project : String := ""
  queue : String := "default"
  noQuotas : Bool := false
  startTime : Int := 0
  walltime : Option Int := none
  resSet : Option ProcSet := none
  moldableId : Int := 0
  deriving DecidableEq

/-- The part of a job seen by the quotas. -/
def Job.qjob (j : Job) : QJob := ⟨j.queue, j.project, j.types.map Prod.fst, j.user⟩

/-- `"container" in job.types` etc. -/
def Job.hasType (j : Job) (t : String) : Bool := (j.types.lookup t).isSome

/-- Models class `Slot` (oar/kao/slot.py:21-87). `ts` is `ts_itvs[user][name]`, `ph` is
`ph_itvs[name]`, `q` the quotas attributes (meaningful when quotas are enabled). -/
structure Slot where
  id : Nat
  prev : Nat
  next : Nat
  itvs : ProcSet
  b : Int
  e : Int
  ts : List (String × List (String × ProcSet)) := []
  ph : List (String × ProcSet) := []
  q : SlotQuotas := ⟨[], [], -1⟩
  deriving DecidableEq

/-- Models class `SlotSet` (oar/kao/slot.py:192-264). -/
structure SlotSet where
  slots : List Slot
  lastId : Nat
  begin_ : Int
  end_ : Int
  cache : List (String × Nat) := []
  deriving DecidableEq

/-- Global context: the class attributes of `Quotas`, with the (mutable) calendar. -/
structure Ctx where
  env : Env
  cal : Option Calendar

/-- `MAX_TIME` (oar/kao/slot.py:18). -/
def maxTime : Int := 2147483648

/-- `Slot(...)` with fresh quotas (oar/kao/slot.py:85-87). -/
def freshQuotas (ctx : Ctx) : SlotQuotas := ⟨[], ctx.env.defaultRules, -1⟩

/-- `SlotSet(slot)` (oar/kao/slot.py:240-244); the slot is expected to be `Slot(1, 0, 0, ...)`. The
calendar splitting of l.253-264 is `initCalendar`. -/
def SlotSet.ofSlot (s : Slot) : SlotSet := { slots := [s], lastId := 1, begin_ := s.b, end_ := s.e }

/-- `SlotSet((itvs, b))` (oar/kao/slot.py:234-238). -/
def SlotSet.ofItvs (ctx : Ctx) (itvs : ProcSet) (b : Int) : SlotSet :=
  { slots := [{ id := 1, prev := 0, next := 0, itvs := itvs, b := b, e := maxTime,
                q := freshQuotas ctx }],
    lastId := 1, begin_ := b, end_ := maxTime }

/-- `self.slots[sid]`. -/
def SlotSet.get? (ss : SlotSet) (sid : Nat) : Option Slot := ss.slots.find? (fun s => s.id == sid)

/-- In place modification of `self.slots[sid]`. -/
def SlotSet.modify (ss : SlotSet) (sid : Nat) (f : Slot → Slot) : SlotSet :=
  { ss with slots := ss.slots.map (fun s => if s.id = sid then f s else s) }

/-- Models `first` (oar/kao/slot.py:330-336). -/
def SlotSet.first? (ss : SlotSet) : Option Slot := ss.slots.find? (fun s => s.prev == 0)

/-- Python list indexing, negative indices included (`quotas_rules_list[rules_id]`). -/
def pyIndex {α : Type} (l : List α) (i : Int) : Option α :=
  if 0 ≤ i then l[i.toNat]? else if 0 ≤ i + l.length then l[(i + l.length).toNat]? else none

/-- `Quotas.set_rules` (oar/kao/quotas.py:789-793). An out of range id (an `IndexError`, which needs an empty
`quotas_rules_list`) leaves the rules empty. -/
def setRules (ctx : Ctx) (rid : Int) (old : Rules) : Rules :=
  match ctx.cal with
  | none => old
  | some c => (pyIndex c.rulesList rid).getD []

/-- `copy_intervals_set` applied to a new slot (oar/kao/slot.py:582-595). -/
def copyFrom (ctx : Ctx) (src : Slot) (id prev next : Nat) (b e : Int) : Slot :=
  { id := id, prev := prev, next := next, itvs := src.itvs, b := b, e := e, ts := src.ts, ph := src.ph,
    q := { counters := src.q.counters, rules := setRules ctx src.q.rulesId ctx.env.defaultRules,
           rulesId := src.q.rulesId } }

/-- Models `split_at_before` (oar/kao/slot.py:378-435). -/
def SlotSet.splitBefore (ctx : Ctx) (ss : SlotSet) (sid : Nat) (date : Int) :
    Option (SlotSet × Nat × Nat) :=
  if sid = 0 then none else
  match ss.get? sid with
  | none => none
  | some slot =>
    if ¬ (date ≥ slot.b ∧ date ≤ slot.e) then none
    else if slot.b = slot.e then some (ss, sid, sid)
    else
      let newEnd := if slot.b = date then slot.b else date - 1
      let newId := ss.lastId + 1
      let new := copyFrom ctx slot newId slot.prev slot.id slot.b newEnd
      let ss1 := if slot.prev ≠ 0 then ss.modify slot.prev (fun s => { s with next := newId }) else ss
      let ss2 := ss1.modify sid (fun s =>
        { s with prev := newId, b := if slot.b = date then slot.b + 1 else date })
      some ({ ss2 with slots := ss2.slots ++ [new], lastId := newId }, newId, slot.id)

/-- Models `split_at_after` (oar/kao/slot.py:437-496). -/
def SlotSet.splitAfter (ctx : Ctx) (ss : SlotSet) (sid : Nat) (date : Int) :
    Option (SlotSet × Nat × Nat) :=
  if sid = 0 then none else
  match ss.get? sid with
  | none => none
  | some slot =>
    if ¬ (date ≥ slot.b ∧ date ≤ slot.e) then none
    else if slot.b = slot.e then some (ss, sid, sid)
    else
      let newBegin := if slot.b = date then slot.b + 1 else date
      let newId := ss.lastId + 1
      let new := copyFrom ctx slot newId slot.id slot.next newBegin slot.e
      let ss1 := if slot.next ≠ 0 then ss.modify slot.next (fun s => { s with prev := newId }) else ss
      let ss2 := ss1.modify sid (fun s =>
        { s with next := newId, e := if slot.b = date then date else date - 1 })
      some ({ ss2 with slots := ss2.slots ++ [new], lastId := newId }, slot.id, newId)

/-- The `while` loop of `slot_id_at` (oar/kao/slot.py:369-376). `fuel` bounds the walk by the number of
slots. -/
def SlotSet.slotIdAtLoop (ss : SlotSet) (date : Int) : Nat → Slot → Option Nat
  | 0, _ => none
  | fuel + 1, cur =>
    if cur.e < date ∧ cur.next ≠ 0 then
      match ss.get? cur.next with
      | none => none
      | some s => ss.slotIdAtLoop date fuel s
    else if cur.next = 0 ∧ cur.e < date then some 0
    else some cur.id

/-- Models `slot_id_at(date)` with the default `starting_id` (oar/kao/slot.py:348-376); the result `0` is
"not found". -/
def SlotSet.slotIdAt (ss : SlotSet) (date : Int) : Option Nat :=
  match ss.first? with
  | none => none
  | some cur => if cur.b > date then some 0 else ss.slotIdAtLoop date ss.slots.length cur

/-- Models `find_and_split_at` (oar/kao/slot.py:498-500). -/
def SlotSet.findAndSplitAt (ctx : Ctx) (ss : SlotSet) (date : Int) : Option (SlotSet × Nat × Nat) :=
  match ss.slotIdAt date with
  | none => none
  | some sid => ss.splitAfter ctx sid date

/-- The loop of `traverse_id` from a given slot (oar/kao/slot.py:558-563). -/
def SlotSet.walk (ss : SlotSet) (endId : Nat) : Nat → Slot → List Slot
  | 0, s => [s]
  | fuel + 1, s =>
    if s.id ≠ 0 ∧ s.next ≠ 0 ∧ s.id ≠ endId then
      match ss.get? s.next with
      | none => [s]
      | some s' => s :: ss.walk endId fuel s'
    else [s]

/-- Models `traverse_id` (oar/kao/slot.py:536-563), as the list of yielded slots. -/
def SlotSet.traverse (ss : SlotSet) (start endId : Nat) : List Slot :=
  if endId ≠ 0 ∧ (ss.get? endId).isNone then []
  else if start ≠ 0 then
    match ss.get? start with
    | none => []
    | some s => ss.walk endId ss.slots.length s
  else
    match ss.first? with
    | none => []
    | some s => ss.walk endId ss.slots.length s

/-- The inner loop of `traverse_with_width` (oar/kao/slot.py:573-580): first slot that ends at least
`width` after the begin of `s`. -/
def SlotSet.endFor (ss : SlotSet) (width : Int) (s : Slot) : Option Slot :=
  (ss.traverse s.id 0).find? (fun e => decide (e.e - s.b + 1 ≥ width))

/-- Models `traverse_with_width` with `end_id=0` (oar/kao/slot.py:565-580), as the list of yielded pairs.
`none` is the failed `assert width > 0`. -/
def SlotSet.traverseWidth (ss : SlotSet) (width : Int) (start : Nat) : Option (List (Slot × Slot)) :=
  if width > 0 then
    some ((ss.traverse start 0).filterMap (fun s => (ss.endFor width s).map (fun e => (s, e))))
  else none

/-- Models `get_encompassing_range` (oar/kao/slot.py:502-516). -/
def encompassingLoop (start end_ : Int) : List Slot → Nat → Nat × Nat
  | [], f => (f, 0)
  | s :: rest, f =>
    let f' := if start ≥ s.b ∧ start ≤ s.e then s.id else f
    if end_ ≥ s.b ∧ end_ ≤ s.e then (f', s.id) else encompassingLoop start end_ rest f'

/-- Models `get_encompassing_range` (oar/kao/slot.py:502-516). -/
def SlotSet.encompassingRange (ss : SlotSet) (start end_ : Int) : Option (Nat × Nat) :=
  if start ≤ end_ then some (encompassingLoop start end_ (ss.traverse 0 0) 0) else none

/-- First loop of `get_encompassing_slots` (oar/kao/slot.py:526-527): follow `next` while the slot ends
before `t`. Reaching `next = 0` is a `KeyError`. -/
def SlotSet.leftLoop (ss : SlotSet) (t : Int) : Nat → Slot → Option Slot
  | 0, _ => none
  | fuel + 1, s =>
    if s.e < t then
      match ss.get? s.next with
      | none => none
      | some s' => ss.leftLoop t fuel s'
    else some s

/-- Second loop of `get_encompassing_slots` (oar/kao/slot.py:531-532), which stops at the last slot. -/
def SlotSet.rightLoop (ss : SlotSet) (t : Int) : Nat → Slot → Option Slot
  | 0, _ => none
  | fuel + 1, s =>
    if s.e < t ∧ s.next ≠ 0 then
      match ss.get? s.next with
      | none => none
      | some s' => ss.rightLoop t fuel s'
    else some s

/-- Models `get_encompassing_slots` (oar/kao/slot.py:518-534); `firstId = 0` is the default `None`. -/
def SlotSet.encompassingSlots (ss : SlotSet) (tb te : Int) (firstId : Nat) : Option (Nat × Nat) :=
  let start := if firstId ≠ 0 then ss.get? firstId else ss.first?
  match start with
  | none => none
  | some s =>
    match ss.leftLoop tb ss.slots.length s with
    | none => none
    | some l =>
      match ss.rightLoop te ss.slots.length l with
      | none => none
      | some r => some (l.id, r.id)

/-- The `while sid != sid_right` loop of `intersec_itvs_slots` (oar/kao/slot.py:144-146). -/
def SlotSet.intersecLoop (ss : SlotSet) (right : Nat) : Nat → Slot → ProcSet → Option ProcSet
  | 0, _, _ => none
  | fuel + 1, s, acc =>
    if s.id ≠ right then
      match ss.get? s.next with
      | none => none
      | some s' => ss.intersecLoop right fuel s' (acc ∩ s'.itvs)
    else some acc

/-- Models `intersec_itvs_slots` (oar/kao/slot.py:118-148). -/
def SlotSet.intersec (ss : SlotSet) (left right : Nat) : Option ProcSet :=
  match ss.get? left with
  | none => none
  | some s => ss.intersecLoop right ss.slots.length s s.itvs

/-- Dictionary lookup with a default `{}`. -/
def dictGet {α : Type} (d : List (String × α)) (k : String) : Option α := d.lookup k

/-- The resources of one slot a sharing job may use (oar/kao/slot.py:163-178). -/
def shareable (job : Job) (slot : Slot) : ProcSet :=
  let itvs := slot.itvs
  let itvs :=
    if job.ts then
      match dictGet slot.ts "*" with
      | some d =>
        match dictGet d "*" with
        | some x => itvs ∪ x
        | none => match dictGet d job.name with
          | some x => itvs ∪ x
          | none => itvs
      | none =>
        match dictGet slot.ts job.user with
        | some d =>
          match dictGet d "*" with
          | some x => itvs ∪ x
          | none => match dictGet d job.name with
            | some x => itvs ∪ x
            | none => itvs
        | none => itvs
    else itvs
  if job.ph = 2 then
    match dictGet slot.ph job.phName with
    | some x => itvs ∪ x
    | none => itvs
  else itvs

/-- The accumulation step `if not itvs_acc: itvs_acc = itvs else: itvs_acc & itvs`
(oar/kao/slot.py:180-183). -/
def accStep (acc itvs : ProcSet) : ProcSet := if acc = ∅ then itvs else acc ∩ itvs

/-- The loop of `intersec_ts_ph_itvs_slots` (oar/kao/slot.py:160-188). -/
def SlotSet.intersecTsLoop (ss : SlotSet) (job : Job) (right : Nat) : Nat → Slot → ProcSet → Option ProcSet
  | 0, _, _ => none
  | fuel + 1, s, acc =>
    let acc' := accStep acc (shareable job s)
    if s.id = right then some acc'
    else
      match ss.get? s.next with
      | none => none
      | some s' => ss.intersecTsLoop job right fuel s' acc'

/-- Models `intersec_ts_ph_itvs_slots` (oar/kao/slot.py:151-189). -/
def SlotSet.intersecTs (ss : SlotSet) (job : Job) (left right : Nat) : Option ProcSet :=
  match ss.get? left with
  | none => none
  | some s => ss.intersecTsLoop job right ss.slots.length s ∅

/-- Python `d[k] = v`. -/
def dictSet {α : Type} (k : String) (v : α) : List (String × α) → List (String × α)
  | [] => [(k, v)]
  | (k', v') :: l => if k' = k then (k, v) :: l else (k', v') :: dictSet k v l

/-- Models `sub_slot_during_job` (oar/kao/slot.py:598-615). `w`, `r` are the job's walltime and
resources. -/
def subSlot (ctx : Ctx) (job : Job) (w : Int) (r : ProcSet) (slot : Slot) : Slot :=
  let ts := if job.ts then
      let d := (dictGet slot.ts job.tsUser).getD []
      dictSet job.tsUser (match dictGet d job.tsName with
        | some _ => d
        | none => dictSet job.tsName r d) slot.ts
    else slot.ts
  let ph := if job.ph = 2 then
      match dictGet slot.ph job.phName with
      | some x => dictSet job.phName (x \ r) slot.ph
      | none => slot.ph
    else if job.ph = 1 then dictSet job.phName r slot.ph
    else slot.ph
  let q := if ctx.env.enabled ∧ ¬ job.hasType "container" then
      { slot.q with counters :=
          (Quotas.update ctx.env.jobTypes job.qjob (r ∩ ctx.env.defaultItvs).card w slot.q.counters) }
    else slot.q
  { slot with itvs := slot.itvs \ r, ts := ts, ph := ph, q := q }

/-- Models `add_slot_during_job` (oar/kao/slot.py:619-635). -/
def addSlot (job : Job) (r : ProcSet) (slot : Slot) : Slot :=
  let itvs := if ¬ job.ts ∧ job.ph = 0 then slot.itvs ∪ r else slot.itvs
  let ts := if job.ts then
      let d := (dictGet slot.ts job.tsUser).getD []
      dictSet job.tsUser (match dictGet d job.tsName with
        | some x => dictSet job.tsName (x ∪ r) d
        | none => dictSet job.tsName r d) slot.ts
    else slot.ts
  let ph := if job.ph = 1 then
      match dictGet slot.ph job.phName with
      | some x => dictSet job.phName (x ∪ r) slot.ph
      | none => dictSet job.phName r slot.ph
    else slot.ph
  { slot with itvs := itvs, ts := ts, ph := ph }

/-- The final loop of `split_slots` (oar/kao/slot.py:662-669): the slots yielded by
`traverse_id(sid_left, sid_right)` are modified in place. -/
def SlotSet.applyRange (ss : SlotSet) (left right : Nat) (f : Slot → Slot) : SlotSet :=
  (ss.traverse left right).foldl (fun s x => s.modify x.id f) ss

/-- Models `split_slots` (oar/kao/slot.py:639-669) for a job with walltime `w` and resources `r`. -/
def SlotSet.splitSlots (ctx : Ctx) (ss : SlotSet) (left right : Nat) (job : Job) (w : Int) (r : ProcSet)
    (sub : Bool) : Option SlotSet :=
  match ss.get? left with
  | none => none
  | some sl =>
    match (if sl.b < job.startTime then
            (ss.splitBefore ctx left job.startTime).map (fun x => (x.1, x.2.2))
          else some (ss, left)) with
    | none => none
    | some (ss1, left') =>
      match ss1.get? right with
      | none => none
      | some sr =>
        match (if sr.e > job.startTime + w then
                (ss1.splitAfter ctx right (job.startTime + w)).map (fun x => (x.1, x.2.1))
              else some (ss1, right)) with
        | none => none
        | some (ss2, right') =>
          some (ss2.applyRange left' right' (if sub then subSlot ctx job w r else addSlot job r))

/-- One iteration of `split_slots_jobs` (oar/kao/slot.py:679-689); state: the slot set and `first_id`. -/
def SlotSet.splitJobStep (ctx : Ctx) (sub : Bool) (ss : SlotSet) (firstId : Nat) (job : Job) :
    Option (SlotSet × Nat) :=
  match job.walltime, job.resSet with
  | some w, some r =>
    if ¬ (job.startTime + w < ss.begin_) ∧ ¬ (job.startTime > ss.end_) then
      match ss.encompassingSlots job.startTime (job.startTime + w - 1) firstId with
      | none => none
      | some (l, rr) =>
        match ss.splitSlots ctx l rr job w r sub with
        | none => none
        | some ss' => some (ss', l)
    else some (ss, firstId)
  | _, _ => none

/-- The loop of `split_slots_jobs`. -/
def SlotSet.splitJobsLoop (ctx : Ctx) (sub : Bool) : List Job → SlotSet → Nat → Option SlotSet
  | [], ss, _ => some ss
  | j :: js, ss, f =>
    match ss.splitJobStep ctx sub f j with
    | none => none
    | some (ss', f') => SlotSet.splitJobsLoop ctx sub js ss' f'

/-- Models `split_slots_jobs` (oar/kao/slot.py:671-689). -/
def SlotSet.splitJobs (ctx : Ctx) (ss : SlotSet) (jobs : List Job) (sub : Bool) : Option SlotSet :=
  match ss.first? with
  | none => none
  | some s => SlotSet.splitJobsLoop ctx sub jobs ss s.id

/-- Set the rules of a slot (oar/kao/slot.py:703-704 and 715-716). -/
def setSlotRules (ctx : Ctx) (rid : Nat) (s : Slot) : Slot :=
  { s with q := { s.q with rulesId := rid, rules := setRules ctx rid s.q.rules } }

/-- Models `temporal_quotas_split_slot` (oar/kao/slot.py:691-726) on slot `sid`. Returns the slot set, the
(mutated) calendar context and the pair `(quotas_rules_id, remaining_duration)`. `none`: a failed assertion
(negative remaining duration) or missing periodicals. `fuel` bounds the number of splits: each iteration
leaves a strictly shorter right part. -/
def SlotSet.temporalSplit : Nat → Ctx → SlotSet → Nat → Nat → Int →
    Option (Ctx × SlotSet × Option Nat × Int)
  | 0, _, _, _, _, _ => none
  | fuel + 1, ctx, ss, sid, rid, rem =>
    match ctx.cal, ss.get? sid with
    | some c, some slot =>
      let dur := slot.e - slot.b + 1
      if dur ≤ rem then some (ctx, ss.modify sid (setSlotRules ctx rid), some rid, rem - dur)
      else
        match ss.splitAfter ctx sid (slot.b + rem) with
        | none => none
        | some (ss1, _, newId) =>
          let ss2 := ss1.modify sid (setSlotRules ctx rid)
          match ss2.get? newId with
          | none => none
          | some bs =>
            match nextRules c bs.b with
            | none => none
            | some (c', rid', rem') =>
              let ctx' := { ctx with cal := some c' }
              match rid' with
              | none => some (ctx', ss2, none, rem')
              | some r' =>
                if rem' = 0 then some (ctx', ss2, some r', rem')
                else SlotSet.temporalSplit fuel ctx' ss2 newId r' rem'
    | _, _ => none

/-- The constructor's loop over slots (oar/kao/slot.py:256-264), from slot `i`. -/
def SlotSet.calendarLoop : Nat → Ctx → SlotSet → Nat → Option Nat → Int → Option (Ctx × SlotSet)
  | 0, _, _, _, _, _ => none
  | fuel + 1, ctx, ss, i, rid, rem =>
    if i ≠ 0 ∧ rem ≠ 0 then
      match ss.get? i, rid with
      | some slot, some r =>
        match SlotSet.temporalSplit (slot.e - slot.b + 1).toNat ctx ss i r rem with
        | none => none
        | some (ctx', ss', rid', rem') => SlotSet.calendarLoop fuel ctx' ss' slot.next rid' rem'
      | _, _ => none
    else some (ctx, ss)

/-- The calendar part of the constructor (oar/kao/slot.py:253-264). -/
def SlotSet.initCalendar (ctx : Ctx) (ss : SlotSet) : Option (Ctx × SlotSet) :=
  match ctx.cal, ss.get? 1 with
  | some c, some s1 =>
    if s1.q.rulesId = -1 then
      match rulesAt c ss.begin_ with
      | none => none
      | some (c', rid, rem) =>
        SlotSet.calendarLoop (ss.slots.length + 1) { ctx with cal := some c' } ss 1 (some rid) rem
    else some (ctx, ss)
  | _, _ => some (ctx, ss)

end Oar.Kao
