import Verif.ReservationProps
import Verif.RoundExtProps
import Verif.CalendarProps

/-!
# Further statements on the scheduler

Each of them pins a detail that the theorems of the property left free (found by the automatic changes of the model).
-/

namespace Oar.Quotas

/-- **C18.** `next_rules`, before the end of the period and without one-shot rules: the entry that follows the current one, the first after the last; after the end of the period, nothing. -/
theorem nextRules_exact (c : Calendar) (t : Int) (i : Nat) (hi : i = if c.opIndex + 1 = c.periodicals.length then 0 else c.opIndex + 1) (h : c.opIndex < c.periodicals.length)
    (ho : c.oneshots = []) :
    nextRules c t = if t < c.periodEnd then some ({ c with opIndex := i }, (c.periodicals[i]?).map (·.rulesId), ((c.periodicals[i]?).map (·.dur)).getD 0) else some (c, none, 0) := by
  have e : (c.opIndex + 1) % c.periodicals.length = i := by
    by_cases h1 : c.opIndex + 1 = c.periodicals.length
    · rw [hi, if_pos h1, h1, Nat.mod_self]
    · rw [hi, if_neg h1, Nat.mod_eq_of_lt (by omega)]
  have hlt : i < c.periodicals.length := by rw [← e]; exact Nat.mod_lt _ (by omega)
  unfold nextRules
  by_cases h2 : t < c.periodEnd
  · rw [if_pos h2, if_neg (by omega), e]
    dsimp only
    rw [List.getElem?_eq_getElem hlt]
    simp [applyOneshot, ho, oneshotAt]
  · rw [if_neg h2, if_pos (by omega)]

end Oar.Quotas

namespace Oar.Kao

/-- **C14.** The slots that cover a window are searched for every window, except one that ends before it begins. -/
theorem encompassingRange_none_iff (ss : SlotSet) (s e : Int) : ss.encompassingRange s e = none ↔ e < s := by
  unfold SlotSet.encompassingRange
  by_cases h : s ≤ e
  · rw [if_pos h]; simp; omega
  · rw [if_neg h]; simp; omega

/-- **C08.** The date that stands for "no place found" is 2³² - 1, after every date of the timeline (its end is 2³¹ at most). -/
theorem no_place_date : largeEnough = 4294967295 ∧ maxTime < largeEnough := by decide

/-- **C11.** A placeholder inserted in the timeline is known by its name in each slot of its window, with its resources; a job allowed in a placeholder takes its resources from it. -/
theorem placeholder_recorded (ctx : Ctx) (job : Job) (w : Int) (r : ProcSet) (slot : Slot) :
    (job.ph = 1 → dictGet (subSlot ctx job w r slot).ph job.phName = some r) ∧
    (job.ph = 2 → ∀ x, dictGet slot.ph job.phName = some x → dictGet (subSlot ctx job w r slot).ph job.phName = some (x \ r)) ∧
    (∀ n, n ≠ job.phName → dictGet (subSlot ctx job w r slot).ph n = dictGet slot.ph n) ∧
    (job.ph ≠ 1 → job.ph ≠ 2 → (subSlot ctx job w r slot).ph = slot.ph) := by
  have hph : (subSlot ctx job w r slot).ph = if job.ph = 2 then
      (match dictGet slot.ph job.phName with
      | some x => dictSet job.phName (x \ r) slot.ph
      | none => slot.ph)
    else if job.ph = 1 then dictSet job.phName r slot.ph else slot.ph := rfl
  rw [hph]
  refine ⟨fun h => ?_, fun h x hx => ?_, fun n hn => ?_, fun h1 h2 => ?_⟩
  · rw [if_neg (by rw [h]; decide), if_pos h]
    unfold dictGet; rw [lookup_dictSet, if_pos rfl]
  · rw [if_pos h, hx]
    unfold dictGet; dsimp only; rw [lookup_dictSet, if_pos rfl]
  · unfold dictGet
    split
    · split
      · rw [lookup_dictSet, if_neg hn]
      · rfl
    · split
      · rw [lookup_dictSet, if_neg hn]
      · rfl
  · rw [if_neg h2, if_neg h1]

end Oar.Kao

namespace Oar.Round

/-- **C102.** The scheduler of a queue counts no quota: the jobs are searched and placed as without quotas. -/
theorem external_no_quotas (job : Kao.Job) : Kao.NoQuotas noQuotas job ∧ noQuotas.cal = none := by
  refine ⟨fun h => ?_, rfl⟩
  have := h.1
  cases this

end Oar.Round
