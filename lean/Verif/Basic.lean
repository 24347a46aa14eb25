import Mathlib.Data.Finset.Card
import Mathlib.Data.Finset.SDiff

/-!
# Basic vocabulary

`procset.ProcSet` (external library) is modelled by a finite set of naturals.
`&`, `|`, `-`, `len`, `==`, `issubset` become `∩`, `∪`, `\`, `Finset.card`, `=`, `⊆`.
-/

namespace Oar

/-- A `procset.ProcSet`: a finite set of (ordered) resource numbers. -/
abbrev ProcSet := Finset Nat

/-- Union of a list of resource sets (specification vocabulary). -/
def bigUnion : List ProcSet → ProcSet
  | [] => ∅
  | x :: xs => x ∪ bigUnion xs

theorem mem_bigUnion {r : Nat} : ∀ {l : List ProcSet}, r ∈ bigUnion l ↔ ∃ x ∈ l, r ∈ x
  | [] => by simp [bigUnion]
  | x :: xs => by simp [bigUnion, mem_bigUnion (l := xs)]

theorem bigUnion_append (l m : List ProcSet) : bigUnion (l ++ m) = bigUnion l ∪ bigUnion m := by
  ext r; simp only [mem_bigUnion, Finset.mem_union, List.mem_append]
  constructor
  · rintro ⟨x, h | h, hr⟩
    · exact Or.inl ⟨x, h, hr⟩
    · exact Or.inr ⟨x, h, hr⟩
  · rintro (⟨x, h, hr⟩ | ⟨x, h, hr⟩)
    · exact ⟨x, Or.inl h, hr⟩
    · exact ⟨x, Or.inr h, hr⟩

end Oar
