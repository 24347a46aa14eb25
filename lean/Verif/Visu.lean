import Verif.Api

/-!
# Model of the tables of the visualised Gantt

A round ends by copying the plan in two tables that the users read: it empties them and commits, then fills them and commits. A round may stop at any commit.
-/

namespace Oar.Visu

/-- The two tables of a plan: the dates and the resources of the descriptions (oar/lib/models.py:203-213, 241-251). -/
structure Gantt where
  preds : List (Nat × Int)
  res : List (Nat × Nat)
  deriving DecidableEq

/-- The tables of the plan and those shown (oar/lib/models.py:228-238, 268-278). -/
structure St where
  gantt : Gantt
  visu : Gantt
  deriving DecidableEq

/-- The commits of a round, as far as these tables are concerned. -/
inductive Commit
  /-- A change of the plan: what the round writes in the tables of the Gantt is not described here (see `Round`). -/
  | plan (g : Gantt)
  /-- The deletions of `update_gantt_visualization` (oar/kao/meta_sched.py:615-617). -/
  | clear
  /-- Its insertions (oar/kao/meta_sched.py:619-629). -/
  | fill

/-- The keys of the tables are unique: `moldable_job_id` for the dates, the pair for the resources. -/
def Gantt.unique (g : Gantt) : Bool := decide ((g.preds.map (·.1)).Nodup) && decide (g.res.Nodup)

/-- The rows shown followed by those of the plan. -/
def joined (s : St) : Gantt := ⟨s.visu.preds ++ s.gantt.preds, s.visu.res ++ s.gantt.res⟩

/-- The effect of a commit. An insertion of a key already present raises: nothing is inserted. -/
def step (s : St) : Commit → St
  | .plan g => { s with gantt := g }
  | .clear => { s with visu := ⟨[], []⟩ }
  | .fill => if (joined s).unique then { s with visu := joined s } else s

/-- A round (oar/kao/meta_sched.py:845-1063): the states of the plan that it commits, and the number of its commits done before it stops: by a crash, an exception, or because it is still
running when the users read. -/
structure Run where
  plans : List Gantt
  done : Nat

/-- The commits done by a round. -/
def Run.commits (r : Run) : List Commit := (r.plans.map Commit.plan ++ [Commit.clear, Commit.fill]).take r.done

/-- The tables after rounds. -/
def after (s : St) (rs : List Run) : St := (rs.flatMap Run.commits).foldl step s

/-- What the lists of jobs read (oar/lib/basequery.py:137-147) when the other tables are those of `db`. -/
def view (db : Api.Db) (s : St) : Api.Db := { db with preds := s.visu.preds, visu := s.visu.res }

end Oar.Visu
