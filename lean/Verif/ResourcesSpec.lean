import Verif.Resources

/-!
# Specification of the histories of resources
-/

namespace Oar.Res

/-- The intervals of one attribute of one resource. -/
def RDB.logOf (w : RDB) (rid : Nat) (attr : String) : List RLog := w.rlog.filter (fun l => l.rid == rid && l.attr == attr)

/-- The intervals `l` are consecutive, in chronological order, only the last one is open, it carries the value `cur` and began
at `t` or before. -/
def Consecutive (cur : String) (t : Int) : List RLog → Prop
  | [] => False
  | [r] => r.stop = 0 ∧ r.value = cur ∧ 0 < r.start ∧ r.start ≤ t
  | r :: r' :: rest => r.stop = r'.start ∧ 0 < r.start ∧ r.start ≤ r.stop ∧ Consecutive cur t (r' :: rest)

/-- One action at date `now` on the resources. `api`: whether the REST API may create resources. `jobs`: everything that does
not write the tables of resources. -/
inductive RStep (api : Bool) (now : Int) (w : RDB) : RDB → Prop
  | add (rid : Nat) (host state : String) (hid : ∀ r ∈ w.res, r.id < rid) (hlog : ∀ l ∈ w.rlog, l.rid < rid) :
      RStep api now w (addRes w now rid host state)
  | create (r : Res) (h : api = true) (hid : ∀ x ∈ w.res, x.id < r.id) (hlog : ∀ l ∈ w.rlog, l.rid < r.id) :
      RStep api now w (apiCreate w r)
  | set (rid : Nat) (st : String) (fin : Bool) (hk : ∃ r ∈ w.res, r.id = rid) : RStep api now w (setResState w now rid st fin)
  | next (rid : Nat) (st : String) : RStep api now w (setNext w rid st)
  | nodeNext (host st : String) : RStep api now w (setNodeNext w host st)
  | property (sel : Res → Bool) (p v : String) (hp : p ≠ "maintenance") : RStep api now w (setProp w now sel p v)
  | maintenance (rid : Nat) (on : Bool) (hk : ∃ r ∈ w.res, r.id = rid) : RStep api now w (logMaintenance w now rid on)
  | sarko (timeout : Int) : RStep api now w (sarkoDead w now timeout)
  | finaud (all : Bool) (bad : String → Bool) : RStep api now w (finaudRun w all bad)
  | events (env : Jobs.Env) (hnow : env.now = now) (w' : RDB) (h : ncsRun true env w = some w') : RStep api now w w'
  | remove (rid : Nat) (user : String) (c : Nat) (w' : RDB) (h : removeRes w rid user = some (c, w')) : RStep api now w w'
  | jobs (db : Jobs.DB) (assigned : List Ass) (molds : List (Nat × Nat)) :
      RStep api now w { w with db := db, assigned := assigned, molds := molds }

/-- The tables reachable from empty ones (PostgreSQL), the clock never going back. -/
inductive RHistory (api : Bool) : Int → RDB → Prop
  | start (t : Int) (h : 0 < t) (db : Jobs.DB) (assigned : List Ass) (molds : List (Nat × Nat)) :
      RHistory api t ⟨[], [], db, assigned, molds⟩
  | step (t now : Int) (w w' : RDB) (h : RHistory api t w) (hle : t ≤ now) (hs : RStep api now w w') : RHistory api now w'

end Oar.Res
