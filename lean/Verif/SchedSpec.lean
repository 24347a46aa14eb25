import Verif.SlotSpec
import Verif.HierarchyProps

/-!
# Specification vocabulary for the search of a placement
-/

namespace Oar.Kao.Spec
open Oar.Hierarchy

/-- The request `groups` of duration `w` could start at date `t`: it is satisfiable from the resources which are free
during the whole window `[t, t + w)` of the timeline. -/
def Feasible (ss : SlotSet) (hy : Hy) (groups : List Group) (w t : Int) : Prop :=
  ∃ A : ProcSet, (∀ x, x ∈ A ↔ FreeDuring ss t w x) ∧ Satisfiable hy groups A

/-- The allocation `R` answers the request at date `t`: its resources are free during the whole window, which lies in
the timeline, there is at least one, and they are what the hierarchical search answers on the free resources (whose
shape is the subject of C05). -/
structure Answers (ss : SlotSet) (hy : Hy) (groups : List Group) (w t : Int) (R : ProcSet) : Prop where
  free : ∀ x ∈ R, FreeDuring ss t w x
  ne : R ≠ ∅
  lo : ss.begin_ ≤ t
  hi : t + w - 1 ≤ ss.end_
  shape : ∃ A : ProcSet, (∀ x, x ∈ A ↔ FreeDuring ss t w x) ∧ findJob A groups hy = some R

end Oar.Kao.Spec
