import Verif.ApiSession

/-!
# Specification of the requests about resources
-/

namespace Oar.ApiSession.Spec

open Oar.ApiSession

/-- A session after a start of the server: nothing is pending. -/
def Fresh (s : Session) : Prop := s.work = s.committed ∧ s.locked = [] ∧ s.failed = false

/-- The resource of a number, as the other programs see it. -/
def seen (s : Session) (id : Nat) : Option Row := s.committed.rows.find? (fun r => r.id == id)

/-- The resource of a number, as the API shows it. -/
def shown (s : Session) (id : Nat) : Option Row := s.work.rows.find? (fun r => r.id == id)

/-- The request reads or writes the tables (the others answer without the database). -/
def Touches : Request → Prop
  | .list o _ => 0 ≤ o
  | .busy => True
  | .show _ => False
  | .create u _ cs => admin u = true ∧ cs ≠ none
  | .state u _ st => admin u = true ∧ st ∈ states
  | .delete u i => admin u = true ∧ i ≠ 0
  | .other _ _ => True
  | .restart => False

/-- A request that the database has no reason to refuse. -/
def Sane (w : World) : Request → Prop
  | .list o l => o ≤ 9223372036854775807 ∧ 0 ≤ l ∧ l ≤ 9223372036854775807
  | .create _ _ cs => ∀ l, cs = some l → ∀ p ∈ l, w.known p.1 = true → w.accepts p.1 p.2 = true
  | .other ok _ => ok = true
  | _ => True

/-- The numbers of the resources are different and below the next one. -/
def Sound (d : Db) : Prop := (d.rows.map (·.id)).Nodup ∧ ∀ r ∈ d.rows, r.id < d.next

end Oar.ApiSession.Spec
