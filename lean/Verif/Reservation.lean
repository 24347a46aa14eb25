import Verif.Scheduling

/-!
# Model of the acceptance of new advance reservations (`oar/kao/meta_sched.py`)
-/

namespace Oar.Kao
open Oar.Hierarchy Oar.Quotas

/-- The effects of one iteration of `check_reservation_jobs`: the timeline, the job object, the calls to
`set_job_state` and whether `set_job_resa_state(…, "Scheduled")` was called. -/
structure ArOut where
  slots : SlotSet
  job : Job
  states : List String
  resaScheduled : Bool

/-- Models the body of the loop of `check_reservation_jobs` (oar/kao/meta_sched.py:377-468) on the slot set "default".
Messages and logs are not modelled; `none` is an exception (e.g. `KeyError` on slot 0). -/
def reserveOne (ctx : Ctx) (hy : Hy) (sec now : Int) (ss : SlotSet) (job : Job) : Option ArOut :=
  match job.mlds with
  | [] => none
  | m :: _ =>
    if now ≥ job.startTime + m.walltime then some ⟨ss, job, ["toError"], false⟩
    else
      let start := if job.startTime < now then now else job.startTime
      match ss.encompassingSlots start (start + m.walltime - sec) 0 with
      | none => none
      | some (l, r) =>
        match available ss job l r with
        | none => none
        | some av =>
          match findJob av m.groups hy with
          | none => none
          | some itvs =>
            let over : Bool := ctx.env.enabled &&
              (checkSlots ctx.env ((ss.traverse l r).map Slot.q) job.qjob (itvs ∩ ctx.env.defaultItvs).card
                m.walltime).isSome
            let itvs' := if over then ∅ else itvs
            let pre := if over then ["toError"] else []
            if itvs'.card = 0 then some ⟨ss, { job with startTime := start }, pre ++ ["toError"], true⟩
            else
              let job' : Job := { job with startTime := start, moldableId := m.id, resSet := some itvs', walltime := some m.walltime }
              match ss.encompassingRange start (start + m.walltime) with
              | none => none
              | some (l', r') =>
                match ss.splitSlots ctx l' r' job' m.walltime itvs' true with
                | none => none
                | some ss' => some ⟨ss', job', pre ++ ["toAckReservation"], true⟩

/-- Models the loop of `check_reservation_jobs` over the pending reservations (oar/kao/meta_sched.py:377-468). -/
def reserveAll (ctx : Ctx) (hy : Hy) (sec now : Int) : SlotSet → List Job → Option (SlotSet × List ArOut)
  | ss, [] => some (ss, [])
  | ss, j :: js =>
    match reserveOne ctx hy sec now ss j with
    | none => none
    | some o =>
      match reserveAll ctx hy sec now o.slots js with
      | none => none
      | some (ss', os) => some (ss', o :: os)

end Oar.Kao
