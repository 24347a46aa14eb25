import Verif.ShareProps

/-!
# Specification for C108: sharing a resource

The jobs are inserted one after the other in a timeline that held no job. Nothing here mentions the way the timeline records
what may be shared.
-/

namespace Oar.Kao.Sharing

/-- The job occupies resource `k` at date `t`: the date is in `[start, start + walltime)` and the resource is one of its own. -/
def Occupies (j : Job) (t : Int) (k : Nat) : Prop :=
  ∃ w R, j.walltime = some w ∧ j.resSet = some R ∧ j.startTime ≤ t ∧ t < j.startTime + w ∧ k ∈ R

/-- Two jobs that may hold the same resource at the same date: both asked to share (timesharing), or one is a placeholder and the other
is allowed in the placeholder of that name. -/
def MayShare (a b : Job) : Prop :=
  (a.ts = true ∧ b.ts = true) ∨ (a.ph = 1 ∧ b.ph = 2 ∧ a.phName = b.phName) ∨ (a.ph = 2 ∧ b.ph = 1 ∧ a.phName = b.phName)

/-- What job `a` asked to share covers job `b`: any user or the user of `b`, any name or the name of `b`. -/
def Covers (a b : Job) : Prop := (a.tsUser = "*" ∨ a.tsUser = b.user) ∧ (a.tsName = "*" ∨ a.tsName = b.name)

/-- The timeline may take this job: at each date of its window, each of its resources is free, or shared with jobs compatible with it, or
one of the placeholder it is allowed in (`MayUse`). -/
def Takes (ss : SlotSet) (j : Job) (w : Int) (R : ProcSet) : Prop :=
  ∀ t, j.startTime ≤ t → t < j.startTime + w → ∀ s ∈ ss.slots, s.b ≤ t → t ≤ s.e → ∀ k ∈ R, MayUse j s k

/-- The jobs `js` are inserted one by one, each at a place where it may be, in a timeline; no job is at the same time timesharing and a
placeholder, or allowed in one. -/
inductive History (ctx : Ctx) (ss0 : SlotSet) : List Job → SlotSet → Prop where
  | start : History ctx ss0 [] ss0
  | insert {js : List Job} {ss ss' : SlotSet} {j : Job} {w : Int} {R : ProcSet} : History ctx ss0 js ss →
      j.walltime = some w → j.resSet = some R → 1 ≤ w → ss.begin_ < j.startTime + w → j.startTime ≤ ss.end_ →
      (j.ts = true → j.ph = 0) → Takes ss j w R → ss.splitJobs ctx [j] true = some ss' → History ctx ss0 (js ++ [j]) ss'

/-- No job is in the timeline. -/
def Fresh (ss : SlotSet) : Prop := ∀ s ∈ ss.slots, s.ts = [] ∧ s.ph = []

end Oar.Kao.Sharing
