import Verif.TemporalLemmas
import Verif.CalendarProps

/-!
# Specification for C109: the rules of the calendar at each date
-/

namespace Oar.Kao.Temporal
open Oar.Quotas

/-- The weeks of the calendar all last seven days, from Monday `o` on (no change of the legal time). -/
def Weekly (c : Calendar) (o : Int) : Prop := ∀ t, c.weekOrigin t = o + (t - o) / week * week

/-- Rules number `r` are in force at date `t`: they are those of the period of the week that contains the date. -/
def InForce (c : Calendar) (t : Int) (r : Nat) : Prop := ∃ p ∈ c.periodicals, p.rulesId = r ∧ p.Contains (t - c.weekOrigin t)

/-- A calendar that the code accepts: its periods are not empty and tile the week; no one-shot period. -/
def Regular (c : Calendar) (o : Int) : Prop :=
  Weekly c o ∧ checkPeriodicals c.periodicals = true ∧ (∀ p ∈ c.periodicals, 0 < p.dur) ∧ c.oneshots = []

/-- The rules number of the timeline at date `t`. -/
def RulesAt (ss : SlotSet) (t : Int) (r : Int) : Prop := ∃ s ∈ ss.slots, s.b ≤ t ∧ t ≤ s.e ∧ s.q.rulesId = r

end Oar.Kao.Temporal
