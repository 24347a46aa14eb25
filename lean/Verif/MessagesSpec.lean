import Verif.Messages

/-!
# Specification: how the message of a job is read

Nothing here follows the code that writes the messages.
-/

namespace Oar.Messages.Spec

open Oar.Tools

/-- The text before the first space. -/
def body (m : List Char) : List Char := m.takeWhile (· ≠ ' ')

/-- What a user reads after `k=`: the fields are separated by commas, the first one that begins with `k=` counts. -/
def value (k : Char) (m : List Char) : Option (List Char) :=
  ((split ',' (body m)).find? (fun f => decide (f.take 2 = [k, '=']))).map (·.drop 2)

/-- A text without comma nor space. -/
def Plain (l : List Char) : Prop := ∀ c ∈ l, c ≠ ',' ∧ c ≠ ' '

instance (l : List Char) : Decidable (Plain l) := inferInstanceAs (Decidable (∀ c ∈ l, _))

/-- The text has none of the character `x`. -/
def Without (x : Char) (l : List Char) : Prop := ∀ c ∈ l, c ≠ x

instance (x : Char) (l : List Char) : Decidable (Without x l) := inferInstanceAs (Decidable (∀ c ∈ l, _))

/-- An optional text which has no use when it is empty. -/
def shown (l : Option (List Char)) : Option (List Char) := match l with | some [] => none | o => o

/-- All the texts of a submission are plain. -/
def PlainSub (s : Sub) : Prop := (∀ n, s.name = some n → Plain n) ∧ Plain s.queue ∧ Plain s.project ∧ ∀ t ∈ s.types, Plain t

end Oar.Messages.Spec
