import Verif.QueuesProps

/-!
# C60: the value of the karma of a job
-/

namespace Oar.Queues

open Oar.Accounting

/-- The consumption recorded in the rows that satisfy `p`. -/
def consumed (p : AKey → Prop) [DecidablePred p] : Table → Rat
  | [] => 0
  | r :: t => (if p r.1 then (r.2 : Rat) else 0) + consumed p t

/-- The rows of the queues and of the consumption type `ty` in the window, without the window that ends at `now`. -/
def InWindow (queues : List String) (lo now : Int) (ty : String) (k : AKey) : Prop :=
  k.queue ∈ queues ∧ lo ≤ k.wstart ∧ k.wstop < now ∧ k.ctype = ty

/-- The same, with the window that ends at `now`. -/
def InWindowClosed (queues : List String) (lo now : Int) (ty : String) (k : AKey) : Prop :=
  k.queue ∈ queues ∧ lo ≤ k.wstart ∧ k.wstop ≤ now ∧ k.ctype = ty

instance (queues : List String) (lo now : Int) (ty : String) : DecidablePred (InWindow queues lo now ty) :=
  fun _ => by unfold InWindow; infer_instance

instance (queues : List String) (lo now : Int) (ty : String) : DecidablePred (InWindowClosed queues lo now ty) :=
  fun _ => by unfold InWindowClosed; infer_instance

/-- The total of the window, which divides the consumptions: 1 when the window has no row. -/
def total (queues : List String) (lo now : Int) (ty : String) (t : Table) : Rat :=
  if ∃ r ∈ t, InWindow queues lo now ty r.1 then consumed (InWindow queues lo now ty) t else 1

theorem sumWhere_consumed (q : AKey → Bool) (p : AKey → Prop) [DecidablePred p] (hq : ∀ k, q k = decide (p k)) (t : Table) (d : Rat) :
    (sumWhere q t).getD d = if ∃ r ∈ t, p r.1 then consumed p t else d := by
  have hf : ∀ t : Table, ((t.filter (fun r => q r.1)).map (fun r => (r.2 : Rat))).sum = consumed p t := by
    intro t
    induction t with
    | nil => rfl
    | cons r t ih =>
      rw [consumed]
      by_cases h : p r.1
      · rw [List.filter_cons_of_pos (by rw [hq]; simpa using h), if_pos h, List.map_cons, List.sum_cons, ih]
      · rw [List.filter_cons_of_neg (by rw [hq]; simpa using h), if_neg h, ih, zero_add]
  unfold sumWhere
  by_cases h : ∃ r ∈ t, p r.1
  · obtain ⟨r, h1, h2⟩ := h
    have hne : (t.filter (fun r => q r.1)).isEmpty = false := by
      rw [← Bool.not_eq_true, List.isEmpty_iff]
      intro e
      have : r ∈ t.filter (fun r => q r.1) := List.mem_filter.2 ⟨h1, by rw [hq]; simpa using h2⟩
      rw [e] at this
      cases this
    rw [if_neg (by rw [hne]; simp), if_pos ⟨r, h1, h2⟩, hf]
    rfl
  · have he : (t.filter (fun r => q r.1)).isEmpty = true := by
      rw [List.isEmpty_iff, List.filter_eq_nil_iff]
      intro r hr
      rw [hq]
      simpa using fun hp => h ⟨r, hr, hp⟩
    rw [if_pos he, if_neg h]
    rfl

theorem consumed_none (p : AKey → Prop) [DecidablePred p] (t : Table) (h : ¬ ∃ r ∈ t, p r.1) : consumed p t = 0 := by
  induction t with
  | nil => rfl
  | cons r t ih =>
    rw [consumed, if_neg (fun hp => h ⟨r, by simp, hp⟩), ih (fun ⟨x, hx, hp⟩ => h ⟨x, List.mem_cons_of_mem _ hx, hp⟩), zero_add]

/-- C60. The karma of a job: the coefficients weigh the share of its project in what was used, less the target of the project,
and the shares of its user in what was used and asked. The shares of the users count the window that ends now, the others do not. -/
theorem karma_value (cf : KarmaConf) (t : Table) (queues : List String) (now : Int) (j : WJob) (k : Rat)
    (h : karma cf t queues now j = some k) :
    ∃ target, projTarget cf j.project = some target ∧
      k = cf.coefProj * (consumed (fun x => InWindow queues (now - cf.window) now "USED" x ∧ x.project = j.project) t /
            total queues (now - cf.window) now "USED" t - target / 100) +
          cf.coefUser * (consumed (fun x => InWindowClosed queues (now - cf.window) now "USED" x ∧ x.user = j.user) t /
            total queues (now - cf.window) now "USED" t) +
          cf.coefAsk * (consumed (fun x => InWindowClosed queues (now - cf.window) now "ASKED" x ∧ x.user = j.user) t /
            total queues (now - cf.window) now "ASKED" t) := by
  obtain ⟨target, h1, h2⟩ := karma_some cf t queues now j k h
  refine ⟨target, h1, ?_⟩
  have hw : ∀ ty, sumWindow queues (now - cf.window) now ty t = total queues (now - cf.window) now ty t := fun ty =>
    sumWhere_consumed _ (InWindow queues (now - cf.window) now ty) (fun _ => rfl) t 1
  have hz : ∀ (p : AKey → Prop) [DecidablePred p], (if ∃ r ∈ t, p r.1 then consumed p t else 0) = consumed p t := by
    intro p _
    split
    · rfl
    · rename_i hn
      exact (consumed_none p t hn).symm
  have hp : ∀ ty, sumProject queues (now - cf.window) now ty j.project t =
      consumed (fun x => InWindow queues (now - cf.window) now ty x ∧ x.project = j.project) t := fun ty =>
    (sumWhere_consumed _ (fun x => InWindow queues (now - cf.window) now ty x ∧ x.project = j.project)
      (fun k => by unfold InWindow; exact decide_eq_decide.2 (by simp only [and_assoc])) t 0).trans
      (hz (fun x => InWindow queues (now - cf.window) now ty x ∧ x.project = j.project))
  have hu : ∀ ty, sumUser queues (now - cf.window) now ty j.user t =
      consumed (fun x => InWindowClosed queues (now - cf.window) now ty x ∧ x.user = j.user) t := fun ty =>
    (sumWhere_consumed _ (fun x => InWindowClosed queues (now - cf.window) now ty x ∧ x.user = j.user)
      (fun k => by unfold InWindowClosed; exact decide_eq_decide.2 (by simp only [and_assoc])) t 0).trans
      (hz (fun x => InWindowClosed queues (now - cf.window) now ty x ∧ x.user = j.user))
  rw [h2]
  unfold karmaFormula
  rw [hw, hw, hp, hu, hu, zero_div, sub_zero, sub_zero]

/-- The hypothesis is met by both users of the example. -/
example : (karma exConf exTable ["default"] 50 (wj 1 "u2" "p" 0)).isSome ∧ (karma exConf exTable ["default"] 50 (wj 2 "u1" "p" 0)).isSome := by
  decide +kernel

/-- C60 (violated). One would expect that a share is at most 1: the window that ends now is counted in what the user used but not in
the total, so that a user who used 90 has a share of 90 over 10. -/
theorem share_violated : ∃ (t : Table) (queues : List String) (lo now : Int),
    total queues lo now "USED" t < consumed (fun x => InWindowClosed queues lo now "USED" x ∧ x.user = "u2") t ∧ total queues lo now "USED" t = 10 :=
  ⟨[(⟨0, 9, "u1", "p", "default", "USED"⟩, 10), (⟨10, 19, "u2", "p", "default", "USED"⟩, 90)], ["default"], 0, 19, by decide +kernel, by decide +kernel⟩

end Oar.Queues
