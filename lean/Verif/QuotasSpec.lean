import Verif.Quotas
import Mathlib.Algebra.BigOperators.Group.List.Basic

/-!
# Vocabulary of the quota properties
-/

namespace Oar.Quotas

instance : Add Cnt := ⟨fun a b => ⟨a.res + b.res, a.jobs + b.jobs, a.time + b.time⟩⟩
instance : Zero Cnt := ⟨⟨0, 0, 0⟩⟩

theorem Cnt.ext' {a b : Cnt} (h1 : a.res = b.res) (h2 : a.jobs = b.jobs) (h3 : a.time = b.time) : a = b := by
  cases a; cases b; simp_all

@[simp] theorem add_res (a b : Cnt) : (a + b).res = a.res + b.res := rfl
@[simp] theorem add_jobs (a b : Cnt) : (a + b).jobs = a.jobs + b.jobs := rfl
@[simp] theorem add_time (a b : Cnt) : (a + b).time = a.time + b.time := rfl
@[simp] theorem zero_res : (0 : Cnt).res = 0 := rfl
@[simp] theorem zero_jobs : (0 : Cnt).jobs = 0 := rfl
@[simp] theorem zero_time : (0 : Cnt).time = 0 := rfl

instance : AddCommMonoid Cnt where
  add_assoc a b c := Cnt.ext' (by simp; omega) (by simp; omega) (by simp; omega)
  zero_add a := Cnt.ext' (by simp) (by simp) (by simp)
  add_zero a := Cnt.ext' (by simp) (by simp) (by simp)
  add_comm a b := Cnt.ext' (by simp; omega) (by simp; omega) (by simp; omega)
  nsmul := nsmulRec

/-- The value of a counter; a key that was never incremented counts zero. -/
def value (c : Counters) (k : Key) : Cnt := (c.lookup k).getD 0

/-- A recorded job: its attributes, number of resources and duration. -/
structure Rec where
  job : QJob
  nb : Int
  dur : Int
  deriving DecidableEq, Repr

/-- What a job consumes: its resources, one job, resources × duration. -/
def Rec.use (r : Rec) : Cnt := ⟨r.nb, 1, r.nb * r.dur⟩

/-- The job belongs to the class designated by a key: each of queue, project, user is "all" (`*`) or the job's own
value, and the type is a configured one and "all" or one of the job's. -/
def InClass (jobTypes : List String) (j : QJob) (k : Key) : Prop :=
  (k.queue = "*" ∨ k.queue = j.queue) ∧ (k.project = "*" ∨ k.project = j.project) ∧
  (k.user = "*" ∨ k.user = j.user) ∧ k.type ∈ jobTypes ∧ (k.type = "*" ∨ k.type ∈ j.types)

instance (jobTypes : List String) (j : QJob) (k : Key) : Decidable (InClass jobTypes j k) := by
  unfold InClass; infer_instance

/-- No queue, project or user is called `*`. -/
def Proper (j : QJob) : Prop := j.queue ≠ "*" ∧ j.project ≠ "*" ∧ j.user ≠ "*"

/-- How specific a label is for a value: the value itself, then "any" (`/`), then "all" (`*`); other labels do not
concern the value. -/
def rank (v label : String) : Option Nat :=
  if label = v then some 0 else if label = "/" then some 1 else if label = "*" then some 2 else none

/-- The specificity of a rule for a job seen with the type `jt`: the ranks of its queue, project, type and user. -/
def ranks (j : QJob) (jt : String) (k : Key) : Option (Nat × Nat × Nat × Nat) :=
  match rank j.queue k.queue, rank j.project k.project, rank jt k.type, rank j.user k.user with
  | some a, some b, some c, some d => some (a, b, c, d)
  | _, _, _, _ => none

/-- Lexicographic order on specificities. -/
def LexLe (x y : Nat × Nat × Nat × Nat) : Prop :=
  x.1 < y.1 ∨ x.1 = y.1 ∧ (x.2.1 < y.2.1 ∨ x.2.1 = y.2.1 ∧ (x.2.2.1 < y.2.2.1 ∨ x.2.2.1 = y.2.2.1 ∧ x.2.2.2 ≤ y.2.2.2))

/-- A limit is respected: negative limits mean "no limit". -/
def Within (limit n : Int) : Prop := limit < 0 ∨ n ≤ limit

end Oar.Quotas
