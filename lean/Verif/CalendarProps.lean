import Verif.Calendar
import Mathlib.Data.List.Sort

/-!
# C18 : the periodic quota calendar
-/

namespace Oar.Quotas

/-! ## Specification -/

/-- Second `x` of the week belongs to the period. -/
def Periodical.Contains (p : Periodical) (x : Int) : Prop := p.begin_ ≤ x ∧ x < p.begin_ + p.dur

instance (p : Periodical) (x : Int) : Decidable (p.Contains x) := by unfold Periodical.Contains; infer_instance

/-- A period of positive length inside the week. -/
def Periodical.InWeek (p : Periodical) : Prop := 0 ≤ p.begin_ ∧ 0 < p.dur ∧ p.begin_ + p.dur ≤ week

instance (p : Periodical) : Decidable p.InWeek := by unfold Periodical.InWeek; infer_instance

/-- Two periods do not overlap. -/
def Apart (p q : Periodical) : Prop := p.begin_ + p.dur ≤ q.begin_ ∨ q.begin_ + q.dur ≤ p.begin_

instance (p q : Periodical) : Decidable (Apart p q) := by unfold Apart; infer_instance

/-! ## Filling -/

/-- The periods in order, each gap filled. -/
def interleave (d : Nat) : Int → List Periodical → List Periodical
  | t, [] => if t ≠ week then [⟨t, week - t, d⟩] else []
  | t, p :: ps => (if t ≠ p.begin_ then [⟨t, p.begin_ - t, d⟩] else []) ++ p :: interleave d (p.begin_ + p.dur) ps

theorem go_interleave (d : Nat) : ∀ (ps : List Periodical) (t : Int), checkPeriodicals.go t (interleave d t ps) = true
  | [], t => by
    unfold interleave
    split
    · simp [checkPeriodicals.go]; omega
    · rename_i h; simp at h; simp [checkPeriodicals.go, h]
  | p :: ps, t => by
    have := go_interleave d ps (p.begin_ + p.dur)
    unfold interleave
    by_cases h : t = p.begin_
    · simp [checkPeriodicals.go, h, this]
    · simp [checkPeriodicals.go, h, this]; omega

/-- A list of periods in order from `t`, within the week. -/
def Ordered : Int → List Periodical → Prop
  | t, [] => t ≤ week
  | t, p :: ps => t ≤ p.begin_ ∧ 0 < p.dur ∧ Ordered (p.begin_ + p.dur) ps

theorem Ordered.le_week : ∀ {ps : List Periodical} {t : Int}, Ordered t ps → t ≤ week
  | [], _, h => h
  | p :: ps, t, h => by have := h.2.2.le_week; have := h.1; have := h.2.1; omega

theorem fillLoop_perm (d : Nat) : ∀ (ps : List Periodical) (t : Int), Ordered t ps →
    (ps ++ (fillLoop d t ps).1 ++ if (fillLoop d t ps).2 ≠ week then
      [(⟨(fillLoop d t ps).2, week - (fillLoop d t ps).2, d⟩ : Periodical)] else []).Perm (interleave d t ps)
  | [], t, h => by unfold fillLoop interleave; rfl
  | p :: ps, t, h => by
    have h1 := fillLoop_perm d ps _ h.2.2
    have hw := h.2.2.le_week
    have hlt : t < week := by have := h.1; have := h.2.1; omega
    unfold fillLoop
    rw [if_pos hlt]
    dsimp only
    unfold interleave
    simp only [List.cons_append, List.append_assoc] at h1 ⊢
    by_cases hp : t = p.begin_
    · rw [if_neg (by simpa using hp)]
      exact (h1).cons p
    · rw [if_pos hp]
      simp only [List.cons_append, List.nil_append]
      refine List.Perm.trans ?_ (List.Perm.swap _ _ _)
      refine List.Perm.cons p ?_
      refine List.Perm.trans List.perm_middle ?_
      exact h1.cons _

theorem interleave_begin (d : Nat) : ∀ (ps : List Periodical) (t : Int), Ordered t ps →
    ∀ q ∈ interleave d t ps, t ≤ q.begin_
  | [], t, h, q, hq => by
    unfold interleave at hq
    split at hq
    · simp at hq; subst hq; simp
    · simp at hq
  | p :: ps, t, h, q, hq => by
    have h1 := h.1
    have h2 := h.2.1
    unfold interleave at hq
    simp only [List.mem_append, List.mem_cons] at hq
    rcases hq with hq | rfl | hq
    · split at hq
      · simp at hq; subst hq; simp
      · simp at hq
    · exact h1
    · have := interleave_begin d ps _ h.2.2 q hq; omega

theorem interleave_sorted (d : Nat) : ∀ (ps : List Periodical) (t : Int), Ordered t ps →
    (interleave d t ps).Pairwise (fun a b => a.begin_ < b.begin_)
  | [], t, h => by unfold interleave; split <;> simp
  | p :: ps, t, h => by
    have h1 := h.1
    have h2 := h.2.1
    have ih := interleave_sorted d ps _ h.2.2
    have hb := interleave_begin d ps _ h.2.2
    have hcons : (p :: interleave d (p.begin_ + p.dur) ps).Pairwise (fun a b => a.begin_ < b.begin_) :=
      List.pairwise_cons.2 ⟨fun q hq => by have := hb q hq; omega, ih⟩
    unfold interleave
    by_cases hp : t = p.begin_
    · rw [if_neg (by simpa using hp)]; exact hcons
    · rw [if_pos hp]
      simp only [List.cons_append, List.nil_append]
      refine List.pairwise_cons.2 ⟨?_, hcons⟩
      intro q hq
      rcases List.mem_cons.1 hq with rfl | hq
      · simp; omega
      · have := hb q hq; simp; omega

theorem interleave_pos (d : Nat) : ∀ (ps : List Periodical) (t : Int), Ordered t ps →
    ∀ q ∈ interleave d t ps, 0 < q.dur
  | [], t, h, q, hq => by
    unfold interleave at hq
    have h : t ≤ week := h
    split at hq
    · simp at hq; subst hq; simp; omega
    · simp at hq
  | p :: ps, t, h, q, hq => by
    have h1 := h.1
    unfold interleave at hq
    simp only [List.mem_append, List.mem_cons] at hq
    rcases hq with hq | rfl | hq
    · split at hq
      · simp at hq; subst hq; simp; omega
      · simp at hq
    · exact h.2.1
    · exact interleave_pos d ps _ h.2.2 q hq

theorem ordered_of_sorted : ∀ (ps : List Periodical) (t : Int), t ≤ week → (∀ p ∈ ps, t ≤ p.begin_) →
    (∀ p ∈ ps, p.InWeek) → ps.Pairwise (fun a b => a.begin_ ≤ b.begin_) → ps.Pairwise Apart → Ordered t ps
  | [], t, h, _, _, _, _ => h
  | p :: ps, t, h, hb, hw, hs, ha => by
    have hp := hw p (by simp)
    have hs' := List.pairwise_cons.1 hs
    have ha' := List.pairwise_cons.1 ha
    refine ⟨hb p (by simp), hp.2.1, ordered_of_sorted ps _ hp.2.2 ?_ (fun q hq => hw q (by simp [hq])) hs'.2 ha'.2⟩
    intro q hq
    have h1 := hs'.1 q hq
    have h2 := ha'.1 q hq
    have h3 := (hw q (by simp [hq])).2.1
    unfold Apart at h2
    omega

theorem sortPeriodicals_sorted (ps : List Periodical) :
    (sortPeriodicals ps).Pairwise (fun a b => a.begin_ ≤ b.begin_) := by
  have := List.pairwise_mergeSort (le := fun a b : Periodical => decide (a.begin_ ≤ b.begin_))
    (fun a b c h1 h2 => by simp at *; omega) (fun a b => by simp; omega) ps
  exact this.imp (fun h => by simpa using h)

theorem build_eq (ps : List Periodical) (d : Nat) (hw : ∀ p ∈ ps, p.InWeek) (ha : ps.Pairwise Apart) :
    buildPeriodicals ps (some d) = interleave d 0 (sortPeriodicals ps) ∧ Ordered 0 (sortPeriodicals ps) := by
  have hperm : (sortPeriodicals ps).Perm ps := List.mergeSort_perm _ _
  have ho : Ordered 0 (sortPeriodicals ps) := by
    refine ordered_of_sorted _ 0 (by decide) (fun p hp => (hw p (hperm.mem_iff.1 hp)).1)
      (fun p hp => hw p (hperm.mem_iff.1 hp)) (sortPeriodicals_sorted ps) ?_
    refine hperm.symm.pairwise ha ?_
    intro a b h; unfold Apart at *; omega
  refine ⟨?_, ho⟩
  unfold buildPeriodicals
  dsimp only
  have h1 := fillLoop_perm d _ 0 ho
  have h2 : (ps ++ (fillLoop d 0 (sortPeriodicals ps)).1 ++
      if (fillLoop d 0 (sortPeriodicals ps)).2 ≠ week then
        [(⟨(fillLoop d 0 (sortPeriodicals ps)).2, week - (fillLoop d 0 (sortPeriodicals ps)).2, d⟩ : Periodical)]
        else []).Perm
      (interleave d 0 (sortPeriodicals ps)) :=
    ((hperm.symm.append_right _).append_right _).trans h1
  have hst := interleave_sorted d _ 0 ho
  refine List.Perm.eq_of_pairwise (le := fun a b => a.begin_ ≤ b.begin_) ?_ (sortPeriodicals_sorted _)
    (hst.imp (fun h => by omega)) ((List.mergeSort_perm _ _).trans h2)
  intro a b hma hmb h3 h4
  have hma' := ((List.mergeSort_perm _ _).trans h2).mem_iff.1 hma
  by_contra hne
  obtain ⟨l, r, e⟩ := List.append_of_mem hma'
  rw [e] at hst hmb
  have hst' := List.pairwise_append.1 hst
  rcases List.mem_append.1 hmb with hb | hb
  · have := hst'.2.2 b hb a (by simp); omega
  · rcases List.mem_cons.1 hb with rfl | hb
    · exact hne rfl
    · have := (List.pairwise_cons.1 hst'.2.1).1 b hb; omega

/-! ## Theorems -/

theorem go_unique : ∀ (ps : List Periodical) (t x : Int), checkPeriodicals.go t ps = true → (∀ p ∈ ps, 0 < p.dur) →
    (x < week → t ≤ x → ∃ l p r, ps = l ++ p :: r ∧ p.Contains x ∧ ∀ q ∈ l ++ r, ¬ q.Contains x) ∧
    (∀ q ∈ ps, t ≤ q.begin_)
  | [], t, x, h, _ => by
    simp [checkPeriodicals.go] at h
    subst h
    exact ⟨fun h1 h2 => by omega, by simp⟩
  | p :: ps, t, x, h, hp => by
    have hp0 := hp p (by simp)
    unfold checkPeriodicals.go at h
    split at h
    · simp at h
    · rename_i hb
      simp only [ne_eq, not_not] at hb
      subst hb
      obtain ⟨h1, h2⟩ := go_unique ps _ x h (fun q hq => hp q (by simp [hq]))
      constructor
      · intro hx htx
        by_cases hc : x < p.begin_ + p.dur
        · refine ⟨[], p, ps, rfl, ⟨htx, hc⟩, ?_⟩
          intro q hq hqc
          have := h2 q (by simpa using hq)
          have := hqc.1
          omega
        · obtain ⟨l, q, r, e, hq, hn⟩ := h1 hx (by omega)
          refine ⟨p :: l, q, r, by simp [e], hq, ?_⟩
          intro q' hq' hqc
          rcases List.mem_cons.1 (List.cons_append ▸ hq') with rfl | hq'
          · exact hc hqc.2
          · exact hn q' hq' hqc
      · intro q hq
        rcases List.mem_cons.1 hq with rfl | hq
        · exact Int.le_refl _
        · have := h2 q hq; omega

/-- **C18 (tiling).** When the configured periods are inside the week and do not overlap, the calendar completed with the
default rules passes the check of the code, keeps the configured periods, only adds periods of the default rules, and
every second of the week belongs to exactly one period. -/
theorem calendar_tiles (ps : List Periodical) (d : Nat) (hw : ∀ p ∈ ps, p.InWeek) (ha : ps.Pairwise Apart) :
    checkPeriodicals (buildPeriodicals ps (some d)) = true ∧
    (∀ p ∈ ps, p ∈ buildPeriodicals ps (some d)) ∧
    (∀ p ∈ buildPeriodicals ps (some d), p ∈ ps ∨ p.rulesId = d) ∧
    ∀ x, 0 ≤ x → x < week → ∃ l p r, buildPeriodicals ps (some d) = l ++ p :: r ∧ p.Contains x ∧
      ∀ q ∈ l ++ r, ¬ q.Contains x := by
  obtain ⟨e, ho⟩ := build_eq ps d hw ha
  have hperm : (sortPeriodicals ps).Perm ps := List.mergeSort_perm _ _
  have hmem : ∀ (l : List Periodical) (t : Int) p, p ∈ l → p ∈ interleave d t l := by
    intro l
    induction l with
    | nil => intro t p hp; simp at hp
    | cons a l ih =>
      intro t p hp
      unfold interleave
      rcases List.mem_cons.1 hp with rfl | hp
      · simp
      · simp [ih _ p hp]
  have hmem2 : ∀ (l : List Periodical) (t : Int) p, p ∈ interleave d t l → p ∈ l ∨ p.rulesId = d := by
    intro l
    induction l with
    | nil =>
      intro t p hp
      unfold interleave at hp
      split at hp
      · simp at hp; subst hp; simp
      · simp at hp
    | cons a l ih =>
      intro t p hp
      unfold interleave at hp
      simp only [List.mem_append, List.mem_cons] at hp
      rcases hp with hp | rfl | hp
      · split at hp
        · simp at hp; subst hp; simp
        · simp at hp
      · simp
      · rcases ih _ p hp with h | h
        · simp [h]
        · exact Or.inr h
  have hgo : checkPeriodicals.go 0 (buildPeriodicals ps (some d)) = true := by rw [e]; exact go_interleave d _ 0
  refine ⟨hgo, fun p hp => ?_, fun p hp => ?_, fun x h0 h1 => ?_⟩
  · rw [e]; exact hmem _ _ _ (hperm.mem_iff.2 hp)
  · rw [e] at hp
    rcases hmem2 _ _ _ hp with h | h
    · exact Or.inl (hperm.mem_iff.1 h)
    · exact Or.inr h
  · refine (go_unique _ 0 x hgo ?_).1 h1 h0
    rw [e]; exact interleave_pos d _ 0 ho

/-- The check of the code is sound: a list of periods of positive length which passes it tiles the week. -/
theorem checked_tiles (ps : List Periodical) (h : checkPeriodicals ps = true) (hp : ∀ p ∈ ps, 0 < p.dur) (x : Int)
    (h0 : 0 ≤ x) (h1 : x < week) :
    ∃ l p r, ps = l ++ p :: r ∧ p.Contains x ∧ ∀ q ∈ l ++ r, ¬ q.Contains x :=
  (go_unique ps 0 x h hp).1 h1 h0

theorem go_append : ∀ (l : List Periodical) (p : Periodical) (r : List Periodical) (t : Int),
    checkPeriodicals.go t (l ++ p :: r) = true → (∀ q ∈ l, 0 < q.dur) → ∀ q ∈ l, q.begin_ < p.begin_
  | [], _, _, _, _, _ => by simp
  | a :: l, p, r, t, h, hp => by
    have ha := hp a (by simp)
    rw [List.cons_append] at h
    unfold checkPeriodicals.go at h
    split at h
    · simp at h
    · rename_i hb
      have ih := go_append l p r _ h (fun q hq => hp q (by simp [hq]))
      intro q hq
      rcases List.mem_cons.1 hq with rfl | hq
      · cases l with
        | nil =>
          rw [List.nil_append] at h
          unfold checkPeriodicals.go at h
          split at h
          · simp at h
          · rename_i hc; simp at hc; omega
        | cons b l =>
          have := ih b (by simp)
          rw [List.cons_append] at h
          unfold checkPeriodicals.go at h
          split at h
          · simp at h
          · rename_i hc; simp at hc; omega
      · exact ih q hq

theorem findIndex_skip : ∀ (l ps : List Periodical) (t : Int) (i : Nat), (∀ q ∈ l, q.begin_ < t) →
    findIndex t (l ++ ps) i = findIndex t ps (i + l.length)
  | [], ps, t, i, _ => rfl
  | a :: l, ps, t, i, h => by
    have := h a (by simp)
    rw [List.cons_append]
    rw [show findIndex t (a :: (l ++ ps)) i = findIndex t (l ++ ps) (i + 1) from if_neg (by omega), findIndex_skip l ps t (i + 1) (fun q hq => h q (by simp [hq]))]
    simp [Nat.add_comm, Nat.add_left_comm]

/-- **C18 (lookup), partial.** At the beginning of a period the rules of this period are returned, and in the last period
of the week the rules of the last period; the remaining duration is right only at the beginning of the week.
Missing: the lookup inside a period that is not the last one, and the remaining duration, which are wrong in the code
(`calendar_lookup_violated`). No one-shot period. -/
theorem calendar_lookup_partial (c : Calendar) (t : Int) (hno : c.oneshots = []) (hck : checkPeriodicals c.periodicals = true)
    (hpos : ∀ p ∈ c.periodicals, 0 < p.dur) (l r : List Periodical) (p : Periodical)
    (hl : c.periodicals = l ++ p :: r) (hp : p.Contains (t - c.weekOrigin t))
    (hb : t - c.weekOrigin t = p.begin_ ∨ r = []) :
    ∃ c' rem, rulesAt c t = some (c', p.rulesId, rem) ∧ (t = c.weekOrigin t → t + rem = c.weekOrigin t + p.begin_ + p.dur) := by
  have hidx : findIndex (t - c.weekOrigin t) c.periodicals 0 = l.length := by
    have hlt := go_append l p r 0 (hl ▸ hck) (fun q hq => hpos q (by rw [hl]; simp [hq]))
    rw [hl, findIndex_skip l _ _ _ (fun q hq => by have := hlt q hq; have := hp.1; omega)]
    unfold findIndex
    rcases hb with hb | hb
    · rw [if_pos (by have := hp.2; omega)]; simp
    · subst hb
      split
      · simp
      · simp [findIndex]
  have hget : c.periodicals[findIndex (t - c.weekOrigin t) c.periodicals 0]? = some p := by
    rw [hidx, hl]; simp
  let c' : Calendar := { c with periodEnd := c.weekOrigin t + c.period, opIndex := l.length }
  refine ⟨c', p.dur - (t - c.weekOrigin t), ?_, ?_⟩
  · unfold rulesAt periodicalRulesAt
    dsimp only
    rw [hget, hidx]
    dsimp only
    have ho : applyOneshot c' t p.rulesId (p.dur - (t - c.weekOrigin t)) =
        (p.rulesId, p.dur - (t - c.weekOrigin t)) := by
      unfold applyOneshot
      rw [show c'.oneshots = [] from hno]
      rfl
    exact congrArg (fun x => some (c', x)) ho
  · intro h
    have h1 := hp.1
    have h2 := hpos p (by rw [hl]; simp)
    have : p.begin_ = 0 := by
      rcases hb with hb | hb
      · omega
      · subst hb
        have hlt := go_append l p [] 0 (hl ▸ hck) (fun q hq => hpos q (by rw [hl]; simp [hq]))
        cases l with
        | nil =>
          rw [hl] at hck
          unfold checkPeriodicals checkPeriodicals.go at hck
          simp at hck
          exact hck.1
        | cons a l =>
          have h3 := hlt a (by simp)
          rw [hl] at hck
          have := (go_unique _ 0 0 hck (fun q hq => hpos q (by rw [hl]; exact hq))).2 a (by simp)
          omega
    omega

/-- Week-end rules 1 (from Saturday), default rules 0. -/
def calWeekend : Calendar :=
  ⟨week, week, buildPeriodicals [⟨5 * 86400, 2 * 86400, 1⟩] (some 0), [], [[], []], 0, 0, fun _ => 0⟩

theorem calWeekend_periodicals : calWeekend.periodicals = [⟨0, 432000, 0⟩, ⟨432000, 172800, 1⟩] := by
  have e := (build_eq [⟨5 * 86400, 2 * 86400, 1⟩] 0 (by decide) (by decide)).1
  show buildPeriodicals [⟨5 * 86400, 2 * 86400, 1⟩] (some 0) = _
  rw [e]
  simp [sortPeriodicals, interleave, week]

/-- **C18 (lookup), violated.** In the week whose Monday is date 0, on Monday at 00:00:10 the default rules are in force,
but the week-end rules are returned; on Saturday at 00:00:00 the remaining time is negative instead of two days. -/
theorem calendar_lookup_violated :
    (∃ p ∈ calWeekend.periodicals, p.Contains 10 ∧ p.rulesId = 0) ∧
    (rulesAt calWeekend 10).map (fun x => x.2) = some (1, 172790) ∧
    (rulesAt calWeekend 432000).map (fun x => x.2) = some (1, -259200) := by
  refine ⟨⟨⟨0, 432000, 0⟩, by rw [calWeekend_periodicals]; simp, by decide, rfl⟩, ?_, ?_⟩ <;>
    simp [rulesAt, periodicalRulesAt, calWeekend_periodicals, findIndex, applyOneshot] <;> simp [calWeekend, oneshotAt]

-- the hypotheses of the theorems
example : (∀ p ∈ [(⟨5 * 86400, 2 * 86400, 1⟩ : Periodical), ⟨0, 32400, 2⟩], p.InWeek) ∧
    [(⟨5 * 86400, 2 * 86400, 1⟩ : Periodical), ⟨0, 32400, 2⟩].Pairwise Apart := by
  constructor <;> decide
example : checkPeriodicals calWeekend.periodicals = true ∧ (∀ p ∈ calWeekend.periodicals, 0 < p.dur) ∧
    calWeekend.periodicals = [⟨0, 432000, 0⟩] ++ ⟨432000, 172800, 1⟩ :: [] ∧
    (⟨432000, 172800, 1⟩ : Periodical).Contains (500000 - calWeekend.weekOrigin 500000) := by
  rw [calWeekend_periodicals]
  refine ⟨by decide, by decide, rfl, by decide⟩

end Oar.Quotas
