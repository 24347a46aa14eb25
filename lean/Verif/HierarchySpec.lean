import Verif.Basic

/-!
# Specification vocabulary for hierarchical requests

Nothing in this file refers to the model of the code. A *level* of the resource hierarchy is a
list of blocks (e.g. the nodes), each block being a set of resources. A request `/switch=2/node=3`
is a list of levels together with a list of counts.
-/

namespace Oar.Hierarchy.Spec

/-- `r` is made of exactly `n` distinct (positions of) blocks of `blocks`, all entirely available. -/
def OneLevel (avail : ProcSet) (blocks : List ProcSet) (n : Int) (r : ProcSet) : Prop :=
  ∃ S : List ProcSet, S.Sublist blocks ∧ (S.length : Int) = n ∧ (∀ b ∈ S, b ⊆ avail) ∧
    r = bigUnion S

/-- The blocks of the level `sub` lying in block `b`. At the last level the part of each block which
lies in `b` is considered; at the other levels only the blocks included in `b`. The two notions
agree when the hierarchy is nested (each sub-block is inside or outside `b`), see
`children_nested`. -/
def childrenOf (b : ProcSet) (sub : List ProcSet) (isLast : Bool) : List ProcSet :=
  if isLast then (sub.filter (fun x => decide ((b ∩ x).card ≠ 0))).map (fun x => b ∩ x)
  else sub.filter (fun s => decide (s ⊆ b))

/-- `r` is an allocation of the shape requested: exactly `n` blocks of the top level, and in each of
them a non-empty allocation of the remaining request among its children; at the last level
exactly the requested number of blocks, all entirely available. -/
def Granted (avail : ProcSet) : List (List ProcSet) → List Int → List ProcSet → ProcSet → Prop
  | [], [n], top, r => OneLevel avail top n r
  | sub :: rest, n :: ns, top, r =>
    ∃ choice : List (ProcSet × ProcSet),
      (choice.map Prod.fst).Sublist top ∧ (choice.length : Int) = n ∧
      (∀ p ∈ choice, p.2 ≠ ∅ ∧ Granted avail rest ns (childrenOf p.1 sub rest.isEmpty) p.2) ∧
      r = bigUnion (choice.map Prod.snd)
  | _, _, _, _ => False

/-- A hierarchy level `sub` is nested in block `b`: each block of `sub` is inside `b` or disjoint
from it, and no block is empty. -/
def NestedIn (b : ProcSet) (sub : List ProcSet) : Prop :=
  ∀ x ∈ sub, x ≠ ∅ ∧ (x ⊆ b ∨ b ∩ x = ∅)

/-- A (non-empty) allocation exists in `avail` for the request of `n` blocks of `top`, refined by the counts `ns` at
the levels `lower`. With a single level the count may be ALL (-1), BEST (-2) or HALF (-3). -/
def SatLevels (avail : ProcSet) (top : List ProcSet) (lower : List (List ProcSet)) (n : Int) (ns : List Int) : Prop :=
  (¬ (lower = [] ∧ n ≤ 0) ∧ ∃ r, r ≠ ∅ ∧ Granted avail lower (n :: ns) top r) ∨
  (lower = [] ∧ n = -1 ∧ top ≠ [] ∧ ∀ b ∈ top, b ⊆ avail) ∨
  (lower = [] ∧ n = -2 ∧ ∃ b ∈ top, b ⊆ avail) ∨
  (lower = [] ∧ n = -3 ∧ 2 ≤ (top.filter (fun b => decide (b ⊆ avail))).length)

end Oar.Hierarchy.Spec
