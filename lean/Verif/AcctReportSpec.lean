import Verif.AcctReport
import Verif.AccountingProps

/-!
# C112 : specification of the consumption of a user over a period
-/

namespace Oar.Report

open Oar.Accounting

/-- Resource-seconds used by the jobs `js` between the dates `a` and `b` (excluded): each job counts for the time it ran
between the two dates, times the number of its resources. -/
def usedBetween (js : List AJob) (a b : Int) : Int := (js.map fun j => overlap j.start j.stop a b * (j.nb : Int)).sum

/-- Resource-seconds asked by the jobs `js` between the dates `a` and `b` (excluded): the same with the walltime of the job
instead of its duration. -/
def askedBetween (js : List AJob) (a b : Int) : Int :=
  (js.map fun j => overlap j.start (j.start + j.walltime) a b * (j.nb : Int)).sum

/-- The jobs of a user. -/
def ofUser (u : String) (js : List AJob) : List AJob := js.filter fun j => j.user == u

/-- The jobs of a project. -/
def ofProject (p : String) (js : List AJob) : List AJob := js.filter fun j => j.project == p

/-- The greatest multiple of `size` that is not after `x`. -/
def alignDown (size x : Int) : Int := x / size * size

/-- The least multiple of `size` that is not before `x`. -/
def alignUp (size x : Int) : Int := -(-x / size) * size

-- the words mean what they say
example : usedBetween [⟨1, "Terminated", 100, 200, 400, "u", "p", "q", 3, true⟩] 150 1000 = 150 := by decide
example : askedBetween [⟨1, "Terminated", 100, 200, 400, "u", "p", "q", 3, true⟩] 150 1000 = 1050 := by decide
example : alignDown 86400 90000 = 86400 ∧ alignUp 86400 90000 = 172800 ∧ alignUp 86400 86400 = 86400 := by decide

end Oar.Report
