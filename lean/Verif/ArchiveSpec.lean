import Verif.Archive

/-!
# Specification for the current rows of the jobs (C107)
-/

namespace Oar.Archive

/-- The job is over. -/
def Ended (j : Job) : Prop := j.state = "Terminated" ∨ j.state = "Error"

/-- The states before the launching. -/
def early : List String := ["Waiting", "Hold", "toAckReservation"]

/-- One action of the server. A job goes back to a state before its launching only from such a state; a job is launched from the state Waiting with one of its moldables;
the identifiers of the new rows are new, and the database gives no identifier 0. -/
inductive Step (b : Base) (db : DB) : DB → Prop
  | submit (jid : Nat) (state : String) (molds : List Nat) (groups : List (Nat × Nat)) (descs : List Nat) (types : List String) (deps : List Nat)
      (hs : state = "Waiting" ∨ state = "Hold") (hj : ∀ j ∈ db.jobs, j.id ≠ jid) (hm : molds.Nodup) (hm0 : 0 ∉ molds) (hmf : ∀ m ∈ db.molds, m.id ∉ molds)
      (hg : (groups.map Prod.fst).Nodup) (hgf : ∀ g ∈ db.groups, g.id ∉ groups.map Prod.fst) (hgm : ∀ g ∈ groups, g.2 ∈ molds)
      (hd : ∀ d ∈ descs, d ∈ groups.map Prod.fst) : Step b db (submit db jid state molds groups descs types deps)
  | state (jid : Nat) (st : String) (h : st ∈ early → ∀ j ∈ db.jobs, j.id = jid → j.state ∈ early) : Step b db (setState b db jid st)
  | launch (j : Job) (m : Mold) (db' : DB) (hj : j ∈ db.jobs) (hw : j.state = "Waiting") (hm : m ∈ db.molds) (hmj : m.job = j.id)
      (h : prepare b db j.id m.id = some db') : Step b db db'
  | nodes (mold : Nat) (hosts : List String) : Step b db (archiveNodes b db mold hosts)
  | schedule (gantt : List (Nat × Nat)) : Step b db { db with gantt := gantt }
  | resources (res : List Res) : Step b db { db with res := res }

/-- The tables reachable from empty ones. -/
inductive History (b : Base) : DB → Prop
  | start : History b {}
  | step (db db' : DB) (h : History b db) (hs : Step b db db') : History b db'

end Oar.Archive
