import Verif.Resources
import Verif.Cli

/-!
# Model of the command `oarremoveresource`

`oar/cli/oarremoveresource.py`, `remove_resource` of `oar/lib/resource_handling.py`, on the tables of the resources (Resources).
-/

namespace Oar.RemoveCmd

open Oar.Res

/-- What the command leaves: the tables, the errors reported, and whether it stopped on an exception. -/
structure Out where
  w : RDB
  exits : List Int
  raised : Bool

/-- Models the loop (oar/cli/oarremoveresource.py:33-37). The identifiers are natural numbers: a negative one is that of no resource. The user is
the effective one. The texts of the messages are left out. -/
def oarremoveresource (user : String) : List Nat → RDB → Out
  | [], w => ⟨w, [], false⟩
  | i :: l, w =>
    match removeRes w i user with
    | none => ⟨w, [], true⟩
    | some (c, w') =>
      let o := oarremoveresource user l w'
      if c ≠ 0 then { o with exits := (c : Int) :: o.exits } else o

/-- The exit status of the process (oar/cli/utils.py:38-52, oar/cli/oarremoveresource.py:38): 1 for an exception. -/
def status (o : Out) : Int := if o.raised then 1 else (Cli.exitValue ⟨o.exits, 0⟩).1

/-- What the database has when the command is killed after `n` resources: each removal is one transaction
(oar/lib/resource_handling.py:209-232). -/
def killed (n : Nat) (user : String) (l : List Nat) (w : RDB) : RDB := (oarremoveresource user (l.take n) w).w

/-- Models `get_current_jobs_dependencies` (oar/lib/job_handling.py:721-741), for one job: the jobs it waits for, with their state and exit code. The
join leaves out the required jobs that have no row. -/
def awaited (w : RDB) (jid : Nat) : List (Nat × String × Option Int) :=
  (w.db.deps.filter (fun d => d.job == jid)).flatMap
    (fun d => (w.db.jobs.filter (fun j => j.id == d.required)).map (fun j => (j.id, j.state, j.exitCode)))

end Oar.RemoveCmd
