import Verif.OarProperty

/-!
# Specification of oarproperty
-/

namespace Oar.OarProperty

/-- A table of the database: names are unique, a value is that of a column. -/
def WF (t : Tab) : Prop := t.names.Nodup ∧ ∀ r c, c ∉ t.names → t.cell r c = none

/-- A name the command accepts: ASCII, not of the system. -/
def Good (n : String) : Prop := (∀ c ∈ n.toList, c.toNat < 128) ∧ n ∉ systemNames

/-- A text that begins with a blank. -/
def Blank (n : String) : Prop := ∃ c, n.toList.head? = some c ∧ (c = ' ' ∨ c = '\t' ∨ c = '\n' ∨ c = '\r')

/-- The text "old,new". -/
def pair (x : String × String) : String := x.1 ++ "," ++ x.2

/-- The new name of a name. -/
def rho (ren : List (String × String)) (c : String) : String := (ren.lookup c).getD c

/-- Deletions, additions and renamings that can be done together: deleted and renamed properties exist, the new ones do not. -/
structure Doable (t : Tab) (del add : List String) (ren : List (String × String)) : Prop where
  delNodup : del.Nodup
  delOk : ∀ n ∈ del, n ∈ t.names ∧ Good n
  addNodup : add.Nodup
  addOk : ∀ n ∈ add, n ∉ t.names ∧ Good n ∧ n ≠ "" ∧ ¬ Blank n
  oldNodup : (ren.map Prod.fst).Nodup
  newNodup : (ren.map Prod.snd).Nodup
  renOk : ∀ x ∈ ren, x.1 ∈ t.names ∧ x.1 ∉ del ∧ Good x.1 ∧ ',' ∉ x.1.toList ∧
    x.2 ∉ t.names ∧ x.2 ∉ add ∧ x.2 ≠ "" ∧ Good x.2 ∧ ',' ∉ x.2.toList

end Oar.OarProperty
