import Verif.Resources

/-!
# Model of the machines that leave at a given date

The part of `Sarko.run` on the desktop computing resources and on the dead ones (`oar/modules/sarko.py`).
-/

namespace Oar.Res

/-- What the rows of `resources` say of these machines: the expiry date of a resource whose `desktop_computing` is YES (`none` for the other ones). -/
abbrev Desk := Nat → Option Int

/-- The condition of `get_expired_resources` (oar/lib/resource_handling.py:284-292). -/
def isExpired (desk : Desk) (now : Int) (r : Res) : Bool :=
  r.state == "Alive" && (match desk r.id with
    | some e => decide (e > 0) && decide (e < now)
    | none => false)

/-- Models `get_expired_resources` (oar/lib/resource_handling.py:275-292). -/
def expired (desk : Desk) (w : RDB) (now : Int) : List Nat := (w.res.filter (isExpired desk now)).map Res.id

/-- One of them (oar/modules/sarko.py:207-216); its row always exists, the number having just been read. -/
def suspectOne (w : RDB) (rid : Nat) : RDB :=
  let w1 := setNext w rid "Suspected"
  match w1.res.find? (fun r => r.id == rid) with
  | some r => { w1 with db := Jobs.addEventHosts w1.db "LOG_SUSPECTED" 0 [r.host] }
  | none => w1

/-- Models the end of `Sarko.run` (oar/modules/sarko.py:203-237): the tables and the number of messages "ChState" sent; `now` and `now'` are the dates of the two queries. -/
def sweep (desk : Desk) (w : RDB) (now now' timeout : Int) : RDB × Nat :=
  let ids := expired desk w now
  let w1 := ids.foldl suspectOne w
  (sarkoDead w1 now' timeout, (if ids.length > 0 then 1 else 0) + (if timeout > 0 ∧ longStates w1 now' timeout ≠ [] then 1 else 0))

end Oar.Res
