import Verif.Slot

/-!
# Specification vocabulary for timelines

Nothing here uses the functions of the model, only its data types.
-/

namespace Oar.Kao.Spec

/-- Id of the first slot of a chain, or `n` when it is empty. -/
def hd (n : Nat) : List Slot → Nat
  | [] => n
  | s :: _ => s.id

/-- The slots of `c` are doubly linked in this order: the first has `prev = p`, each `next` is the id of
the following slot, the last has `next = n`. -/
def Linked (p : Nat) : List Slot → Nat → Prop
  | [], _ => True
  | s :: r, n => s.prev = p ∧ s.next = hd n r ∧ Linked s.id r n

/-- The slots tile exactly the dates `lo..hi`: the first begins at `lo`, each has `b ≤ e`, each begins one
second after the end of the previous one, and the last ends at `hi`. -/
def Tiled (lo : Int) : List Slot → Int → Prop
  | [], hi => lo = hi + 1
  | s :: r, hi => s.b = lo ∧ s.b ≤ s.e ∧ Tiled (s.e + 1) r hi

/-- `c` is the chain of all the slots of `ss`, in time order, and it is a well-formed partition of
`[begin, end]`. -/
structure Partition (ss : SlotSet) (c : List Slot) : Prop where
  /-- the chain visits every slot exactly once -/
  perm : ss.slots.Perm c
  /-- there is at least one slot -/
  ne : c ≠ []
  /-- ids are pairwise distinct -/
  ids : (c.map Slot.id).Nodup
  /-- ids are positive and at most the last id given -/
  range : ∀ s ∈ c, 0 < s.id ∧ s.id ≤ ss.lastId
  /-- `next` / `prev` follow the chain -/
  linked : Linked 0 c 0
  /-- the slots tile `[begin, end]` -/
  tiled : Tiled ss.begin_ c ss.end_

/-- The timeline is well formed. -/
def WF (ss : SlotSet) : Prop := ∃ c, Partition ss c

/-- Resource `x` is free at date `t` in the timeline. -/
def Free (ss : SlotSet) (t : Int) (x : Nat) : Prop :=
  ∃ s ∈ ss.slots, s.b ≤ t ∧ t ≤ s.e ∧ x ∈ s.itvs

/-- Resource `x` is free during the whole window `[t, t + w)`. -/
def FreeDuring (ss : SlotSet) (t w : Int) (x : Nat) : Prop :=
  ∀ u, t ≤ u → u < t + w → Free ss u x

end Oar.Kao.Spec
