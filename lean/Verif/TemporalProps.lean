import Verif.TemporalSpec

/-!
# Property theorems about the rules of the calendar in the timeline (C109)
-/

namespace Oar.Kao.Temporal
open Spec Oar.Quotas

/-! ### The sequence of the periods -/

theorem go_at : ∀ (ps : List Periodical) (t : Int), checkPeriodicals.go t ps = true → (∀ p ∈ ps, 0 < p.dur) → t ≤ week ∧
    (∀ p, ps[0]? = some p → p.begin_ = t) ∧
    ∀ i p, ps[i]? = some p → t ≤ p.begin_ ∧ p.begin_ + p.dur ≤ week ∧ (∀ q, ps[i + 1]? = some q → q.begin_ = p.begin_ + p.dur) ∧
      (ps[i + 1]? = none → p.begin_ + p.dur = week)
  | [], t, h, _ => by
    simp [checkPeriodicals.go] at h
    exact ⟨by omega, by simp, by simp⟩
  | p :: ps, t, h, hp => by
    have hp0 := hp p (by simp)
    unfold checkPeriodicals.go at h
    split at h
    · simp at h
    · rename_i hb
      simp only [ne_eq, not_not] at hb
      obtain ⟨h1, h2, h3⟩ := go_at ps _ h (fun q hq => hp q (by simp [hq]))
      refine ⟨by omega, ?_, ?_⟩
      · intro q hq
        simp only [List.getElem?_cons_zero, Option.some.injEq] at hq
        subst hq; exact hb
      · intro i q hq
        cases i with
        | zero =>
          simp only [List.getElem?_cons_zero, Option.some.injEq] at hq
          subst hq
          refine ⟨by omega, h1, ?_, ?_⟩
          · intro q hq
            rw [List.getElem?_cons_succ] at hq
            exact h2 q hq
          · intro hn
            rw [List.getElem?_cons_succ] at hn
            cases ps with
            | nil => simp [checkPeriodicals.go] at h; exact h
            | cons a ps => simp at hn
        | succ i =>
          rw [List.getElem?_cons_succ] at hq
          obtain ⟨g1, g2, g3, g4⟩ := h3 i q hq
          exact ⟨by omega, g2, fun q hq => g3 q (by rwa [List.getElem?_cons_succ] at hq), fun hn => g4 (by rwa [List.getElem?_cons_succ] at hn)⟩

/-- The state of the calendar at date `t`: its current period is the one of the date and ends in `rem` seconds. -/
def On (c : Calendar) (o t : Int) (rid : Nat) (rem : Int) : Prop :=
  0 < rem ∧ ∃ p, c.periodicals[c.opIndex]? = some p ∧ p.rulesId = rid ∧ p.begin_ ≤ (t - o) % week ∧ (t - o) % week + rem = p.begin_ + p.dur

theorem pos_eq {c : Calendar} {o : Int} (h : Weekly c o) (t : Int) : t - c.weekOrigin t = (t - o) % week := by
  rw [h t]
  have := Int.emod_add_mul_ediv (t - o) week
  have e : (t - o) / week * week = week * ((t - o) / week) := Int.mul_comm _ _
  omega

theorem on_inForce {c : Calendar} {o : Int} (hr : Regular c o) {t : Int} {rid : Nat} {rem : Int} (h : On c o t rid rem) (u : Int) (h1 : t ≤ u) (h2 : u < t + rem) :
    InForce c u rid := by
  obtain ⟨h0, p, hp, hid, hb, he⟩ := h
  obtain ⟨hw, hck, hpos, _⟩ := hr
  have hle := ((go_at c.periodicals 0 hck hpos).2.2 _ p hp).2.1
  refine ⟨p, List.mem_of_getElem? hp, hid, ?_⟩
  rw [pos_eq hw u]
  unfold Periodical.Contains
  simp only [week] at *
  omega

theorem on_next {c : Calendar} {o : Int} (hr : Regular c o) {t : Int} {rid : Nat} {rem : Int} (h : On c o t rid rem) :
    (c.periodEnd ≤ t + rem ∧ nextRules c (t + rem) = some (c, none, 0)) ∨
    ∃ i rid' rem', nextRules c (t + rem) = some ({ c with opIndex := i }, some rid', rem') ∧ On { c with opIndex := i } o (t + rem) rid' rem' := by
  obtain ⟨h0, p, hp, hid, hb, he⟩ := h
  obtain ⟨hw, hck, hpos, hno⟩ := hr
  obtain ⟨_, g0, g⟩ := go_at c.periodicals 0 hck hpos
  obtain ⟨g1, g2, g3, g4⟩ := g _ p hp
  by_cases hend : t + rem ≥ c.periodEnd
  · exact Or.inl ⟨hend, by unfold nextRules; rw [if_pos hend]⟩
  · right
    have hlt : c.opIndex < c.periodicals.length := by
      by_contra hn
      rw [List.getElem?_eq_none (by omega)] at hp
      cases hp
    have hlt' : (c.opIndex + 1) % c.periodicals.length < c.periodicals.length := Nat.mod_lt _ (by omega)
    have hq := List.getElem?_eq_getElem hlt'
    refine ⟨(c.opIndex + 1) % c.periodicals.length, (c.periodicals[(c.opIndex + 1) % c.periodicals.length]).rulesId,
      (c.periodicals[(c.opIndex + 1) % c.periodicals.length]).dur, ?_, ?_⟩
    · unfold nextRules
      rw [if_neg hend]
      dsimp only
      rw [hq]
      simp [applyOneshot, hno, oneshotAt]
    · generalize hqe : c.periodicals[(c.opIndex + 1) % c.periodicals.length] = q at hq ⊢
      have hqp := hpos q (List.mem_of_getElem? hq)
      refine ⟨hqp, q, hq, rfl, ?_⟩
      by_cases hl : c.opIndex + 1 = c.periodicals.length
      · have e0 : (c.opIndex + 1) % c.periodicals.length = 0 := by rw [hl, Nat.mod_self]
        rw [e0] at hq
        have b0 := g0 q hq
        have b1 := g4 (by rw [List.getElem?_eq_none (by omega)])
        have : (t + rem - o) % week = 0 := by
          simp only [week] at *
          omega
        rw [this, b0]
        omega
      · have e0 : (c.opIndex + 1) % c.periodicals.length = c.opIndex + 1 := Nat.mod_eq_of_lt (by omega)
        rw [e0] at hq
        have b0 := g3 q hq
        have b2 := (g _ q hq).2.1
        have : (t + rem - o) % week = q.begin_ := by
          simp only [week] at *
          omega
        rw [this]
        omega

/-! ### Slicing a slot -/

theorem setRules_pay {ctx : Ctx} {rid : Nat} {ss : SlotSet} {l r : List Slot} {s : Slot} (h : Partition ss (l ++ s :: r)) (t : Int) :
    (ss.modify s.id (setSlotRules ctx rid)).pay t = (ss.pay t).map (fun p => if s.b ≤ t ∧ t ≤ s.e then { p with rulesId := rid } else p) := by
  have hp := modify_part (keeps_setSlotRules ctx rid) h
  have hT := h.tiled
  rw [tiled_append] at hT
  obtain ⟨m, hl, hT⟩ := hT
  have hlb := (tiled_bounds _ _ _ hl).2
  rw [pay_chain hp, pay_chain h, payAt_append, payAt_append, payAt_cons, payAt_cons]
  by_cases hb : s.b ≤ t ∧ t ≤ s.e
  · have hm : s.b = m := hT.1
    have hn : payAt l t = none := by
      unfold payAt
      rw [List.find?_eq_none.2]
      · rfl
      · intro x hx
        have := hlb x hx
        rw [has_iff]; omega
    rw [hn, if_pos hb, if_pos (show (setSlotRules ctx rid s).b ≤ t ∧ t ≤ (setSlotRules ctx rid s).e from hb)]
    simp only [Option.none_or, Option.map_some, if_pos hb]
    rfl
  · rw [if_neg hb, if_neg (show ¬ ((setSlotRules ctx rid s).b ≤ t ∧ t ≤ (setSlotRules ctx rid s).e) from hb)]
    simp only [if_neg hb]
    cases (payAt l t).or (payAt r t) <;> rfl

/-- What slicing does at each date of the slot `[b, e]`: the rules in force, up to the end of the period of the calendar. -/
def Sliced (c : Calendar) (b e : Int) (ss ss' : SlotSet) : Prop :=
  ∀ t p', ss'.pay t = some p' → ∃ p, ss.pay t = some p ∧
    ((p' = p ∧ (t < b ∨ e < t ∨ c.periodEnd ≤ t)) ∨ (b ≤ t ∧ t ≤ e ∧ ∃ r : Nat, p' = { p with rulesId := r } ∧ InForce c t r))

theorem inForce_index {c : Calendar} {i : Nat} {t : Int} {r : Nat} : InForce { c with opIndex := i } t r ↔ InForce c t r := Iff.rfl

theorem slice (o : Int) : ∀ (fuel : Nat) (ctx : Ctx) (c : Calendar) (ss : SlotSet) (l r : List Slot) (s : Slot) (rid : Nat) (rem : Int), ctx.cal = some c →
    Regular c o → On c o s.b rid rem → Partition ss (l ++ s :: r) → (s.e - s.b + 1).toNat ≤ fuel →
    ∃ x i, SlotSet.temporalSplit fuel ctx ss s.id rid rem = some x ∧ x.1 = { ctx with cal := some { c with opIndex := i } } ∧ WF x.2.1 ∧ SameMeta ss x.2.1 ∧ Sliced c s.b s.e ss x.2.1
  | 0, ctx, c, ss, l, r, s, rid, rem, hc, hr, hon, hp, hf => by
    have := (tiled_bounds _ _ _ hp.tiled).2 s (by simp)
    omega
  | fuel + 1, ctx, c, ss, l, r, s, rid, rem, hc, hr, hon, hp, hf => by
    have hse := (tiled_bounds _ _ _ hp.tiled).2 s (by simp)
    have hrem := hon.1
    unfold SlotSet.temporalSplit
    rw [hc, hp.get (s := s) (by simp)]
    dsimp only
    have hcc : ctx = { ctx with cal := some { c with opIndex := c.opIndex } } := by rw [← hc]
    by_cases hd : s.e - s.b + 1 ≤ rem
    · rw [if_pos hd]
      obtain ⟨g1, g2, g3, g4⟩ := setRules_part (ctx := ctx) (rid := rid) hp
      refine ⟨_, c.opIndex, rfl, hcc, ⟨_, g1⟩, g3, ?_⟩
      intro t p' hp'
      rw [setRules_pay hp t] at hp'
      cases hpt : ss.pay t with
      | none => rw [hpt] at hp'; cases hp'
      | some p =>
        rw [hpt, Option.map_some, Option.some.injEq] at hp'
        refine ⟨p, rfl, ?_⟩
        by_cases hb : s.b ≤ t ∧ t ≤ s.e
        · rw [if_pos hb] at hp'
          exact Or.inr ⟨hb.1, hb.2, rid, hp'.symm, on_inForce hr hon t hb.1 (by omega)⟩
        · rw [if_neg hb] at hp'
          exact Or.inl ⟨hp'.symm, by omega⟩
    · rw [if_neg hd]
      obtain ⟨ss1, s', n, r', e1, hp1, hr1, hs', hn, hl1, hbg, hen, hca⟩ := splitAfter_part (ctx := ctx) (date := s.b + rem) hp (by omega) (by omega) (by omega)
      have hpay1 := splitAfter_pay hp hp1 (by omega) (by omega) (by omega) hr1 hs' hn
      have hdn : ¬ s.b = s.b + rem := by omega
      rw [if_neg hdn] at hs' hn
      have c1 := core_eq_iff.1 (show s'.core = Slot.core { s with e := s.b + rem - 1 } from hs')
      have hnid : n.id = ss.lastId + 1 := by have := congrArg Slot.id hn; exact this
      have hnb : n.b = s.b + rem := by have := congrArg Slot.b hn; exact this
      have hne : n.e = s.e := by have := congrArg Slot.e hn; exact this
      have hsid : s'.id = s.id := c1.1
      have hsb : s'.b = s.b := c1.2.2.1
      have hsend : s'.e = s.b + rem - 1 := c1.2.2.2.1
      rw [e1]
      dsimp only
      have hp1' : Partition ss1 (l ++ s' :: (n :: r')) := hp1
      obtain ⟨g1, g2, g3, g4⟩ := setRules_part (ctx := ctx) (rid := rid) hp1'
      have hpay2 := fun t => setRules_pay (ctx := ctx) (rid := rid) hp1' t
      rw [hsid] at g1 g3 hpay2
      have hget : (ss1.modify s.id (setSlotRules ctx rid)).get? (ss.lastId + 1) = some n := by rw [← hnid]; exact g1.get (by simp)
      rw [hget]
      dsimp only
      rw [hnb]
      have hmeta : SameMeta ss (ss1.modify s.id (setSlotRules ctx rid)) := (show SameMeta ss ss1 from ⟨hbg, hen, hca⟩).trans g3
      -- the content after the first slicing
      have hfirst : ∀ t p1, (ss1.modify s.id (setSlotRules ctx rid)).pay t = some p1 → ∃ p, ss.pay t = some p ∧
          p1 = if s.b ≤ t ∧ t < s.b + rem then { p with rulesId := rid } else p := by
        intro t p1 hp1
        rw [hpay2 t, hpay1 t] at hp1
        cases hpt : ss.pay t with
        | none => rw [hpt] at hp1; cases hp1
        | some p =>
          rw [hpt, Option.map_some, Option.some.injEq] at hp1
          refine ⟨p, rfl, hp1.symm.trans ?_⟩
          rw [hsb, hsend]
          by_cases hb : s.b ≤ t ∧ t < s.b + rem
          · rw [if_pos hb, if_pos (by omega)]
          · rw [if_neg hb, if_neg (by omega)]
      rcases on_next hr hon with ⟨hend, hnx⟩ | ⟨i, rid', rem', hnx, hon'⟩
      · rw [hnx]
        dsimp only
        refine ⟨_, c.opIndex, rfl, rfl, ⟨_, g1⟩, hmeta, ?_⟩
        intro t p' hp'
        obtain ⟨p, hpt, e⟩ := hfirst t p' hp'
        refine ⟨p, hpt, ?_⟩
        by_cases hb : s.b ≤ t ∧ t < s.b + rem
        · rw [if_pos hb] at e
          exact Or.inr ⟨hb.1, by omega, rid, e, on_inForce hr hon t hb.1 hb.2⟩
        · rw [if_neg hb] at e
          exact Or.inl ⟨e, by omega⟩
      · rw [hnx]
        dsimp only
        rw [if_neg (by have := hon'.1; omega)]
        have g1' : Partition (ss1.modify s.id (setSlotRules ctx rid)) ((l ++ [setSlotRules ctx rid s']) ++ n :: r') := by simpa using g1
        have hr' : Regular { c with opIndex := i } o := hr
        obtain ⟨x, i', h1, h2, h3, h4, h5⟩ := slice o fuel { ctx with cal := some { c with opIndex := i } } { c with opIndex := i } _ _ r' n rid' rem' rfl hr' (hnb ▸ hon') g1' (by omega)
        rw [hnid] at h1
        refine ⟨x, i', h1, h2, h3, hmeta.trans h4, ?_⟩
        intro t p' hp'
        obtain ⟨p1, hp1, h6⟩ := h5 t p' hp'
        obtain ⟨p, hpt, e⟩ := hfirst t p1 hp1
        refine ⟨p, hpt, ?_⟩
        rw [hnb, hne] at h6
        by_cases hb : s.b ≤ t ∧ t < s.b + rem
        · rw [if_pos hb] at e
          rcases h6 with ⟨h6, _⟩ | ⟨h6, _⟩
          · exact Or.inr ⟨hb.1, by omega, rid, h6.trans e, on_inForce hr hon t hb.1 hb.2⟩
          · omega
        · rw [if_neg hb] at e
          subst e
          rcases h6 with ⟨h6, h7⟩ | ⟨h6, h7, h8⟩
          · refine Or.inl ⟨h6, ?_⟩
            rcases h7 with h7 | h7 | h7
            · omega
            · omega
            · exact Or.inr (Or.inr h7)
          · exact Or.inr ⟨by omega, h7, h8⟩

/-! ### The rules themselves -/

/-- In each slot, the rules are those of the calendar that bear the number of the slot. -/
def RulesOk (L : List Rules) (ss : SlotSet) : Prop := ∀ s ∈ ss.slots, ∀ r : Nat, s.q.rulesId = r → s.q.rules = (L[r]?).getD []

theorem setRules_nat {ctx : Ctx} {c : Calendar} (hc : ctx.cal = some c) (r : Nat) (old : Rules) : setRules ctx r old = (c.rulesList[r]?).getD [] := by
  unfold setRules pyIndex
  rw [hc]
  simp

theorem rulesOk_modify {L : List Rules} {ss : SlotSet} (h : RulesOk L ss) {sid : Nat} {f : Slot → Slot}
    (hf : ∀ s, s ∈ ss.slots → ∀ r : Nat, (f s).q.rulesId = r → (f s).q.rules = (L[r]?).getD []) : RulesOk L (ss.modify sid f) := by
  intro x hx
  obtain ⟨s, hs, rfl⟩ := List.mem_map.1 hx
  split
  · exact hf s hs
  · exact h s hs

theorem rulesOk_set {ctx : Ctx} {c : Calendar} (hc : ctx.cal = some c) {ss : SlotSet} (h : RulesOk c.rulesList ss) (sid rid : Nat) :
    RulesOk c.rulesList (ss.modify sid (setSlotRules ctx rid)) := by
  refine rulesOk_modify h ?_
  intro s _ r hr
  have : r = rid := by
    have h1 : ((rid : Nat) : Int) = (r : Nat) := hr
    omega
  subst this
  exact setRules_nat hc r _

theorem rulesOk_split {ctx : Ctx} {c : Calendar} (hc : ctx.cal = some c) {ss ss' : SlotSet} (h : RulesOk c.rulesList ss) {sid i n : Nat} {date : Int}
    (hs : ss.splitAfter ctx sid date = some (ss', i, n)) : RulesOk c.rulesList ss' := by
  unfold SlotSet.splitAfter at hs
  split at hs
  · cases hs
  · split at hs
    · cases hs
    · rename_i slot hslot
      split at hs
      · cases hs
      · split at hs
        · simp only [Option.some.injEq, Prod.mk.injEq] at hs
          rw [← hs.1]; exact h
        · simp only [Option.some.injEq, Prod.mk.injEq] at hs
          rw [← hs.1]
          have h1 : RulesOk c.rulesList (if slot.next ≠ 0 then ss.modify slot.next (fun s => { s with prev := ss.lastId + 1 }) else ss) := by
            split
            · exact rulesOk_modify h (fun s hs r hr => h s hs r hr)
            · exact h
          intro x hx
          rcases List.mem_append.1 hx with hx | hx
          · exact rulesOk_modify (sid := sid) (f := fun s => { s with next := ss.lastId + 1, e := if slot.b = date then date else date - 1 }) h1
              (fun s hs r hr => h1 s hs r hr) x hx
          · rw [List.mem_singleton.1 hx]
            intro r hr
            have hr' : slot.q.rulesId = r := hr
            show setRules ctx slot.q.rulesId ctx.env.defaultRules = _
            rw [hr']
            exact setRules_nat hc r _

theorem nextRules_list {c c' : Calendar} {t : Int} {a : Option Nat} {b : Int} (h : nextRules c t = some (c', a, b)) : c'.rulesList = c.rulesList := by
  unfold nextRules at h
  split at h
  · simp only [Option.some.injEq, Prod.mk.injEq] at h
    rw [← h.1]
  · dsimp only at h
    split at h
    · cases h
    · simp only [Option.some.injEq, Prod.mk.injEq] at h
      rw [← h.1]

theorem slice_rules (L : List Rules) : ∀ (fuel : Nat) (ctx : Ctx) (c : Calendar) (ss : SlotSet) (sid rid : Nat) (rem : Int) (x : Ctx × SlotSet × Option Nat × Int), ctx.cal = some c →
    c.rulesList = L → RulesOk L ss → SlotSet.temporalSplit fuel ctx ss sid rid rem = some x → RulesOk L x.2.1
  | 0, _, _, _, _, _, _, _, _, _, _, h => by simp [SlotSet.temporalSplit] at h
  | fuel + 1, ctx, c, ss, sid, rid, rem, x, hc, hL, hok, h => by
    subst hL
    unfold SlotSet.temporalSplit at h
    rw [hc] at h
    split at h
    · rename_i c0 slot hcal hget
      obtain rfl := Option.some.inj hcal
      dsimp only at h
      split at h
      · rw [Option.some.injEq] at h
        subst h
        exact rulesOk_set hc hok _ _
      · split at h
        · cases h
        · rename_i ss1 i newId hsp
          have h1 := rulesOk_split hc hok hsp
          have h2 := rulesOk_set hc h1 sid rid
          split at h
          · cases h
          · split at h
            · cases h
            · rename_i c' rid' rem' hnx
              split at h
              · simp only [Option.some.injEq] at h
                subst h
                exact h2
              · split at h
                · simp only [Option.some.injEq] at h
                  subst h
                  exact h2
                · exact slice_rules _ fuel _ c' _ _ _ _ x rfl (nextRules_list hnx) h2 h
    · cases h

/-! ### The timeline -/

theorem rulesAt_iff {ss : SlotSet} (h : WF ss) (t r : Int) : RulesAt ss t r ↔ ∃ p, ss.pay t = some p ∧ p.rulesId = r := by
  obtain ⟨c, hc⟩ := h
  constructor
  · rintro ⟨s, hs, h1, h2, h3⟩
    refine ⟨s.pay, ?_, h3⟩
    rw [pay_chain hc]
    exact payAt_of_mem hc.tiled (hc.mem_iff.1 hs) h1 h2
  · rintro ⟨p, hp, h3⟩
    unfold SlotSet.pay payAt at hp
    cases hf : ss.slots.find? (fun s => s.has t) with
    | none => rw [hf] at hp; cases hp
    | some s =>
      rw [hf, Option.map_some, Option.some.injEq] at hp
      have h0 := List.find?_some hf
      have h1 := has_iff.1 h0
      exact ⟨s, List.mem_of_find?_eq_some hf, h1.1, h1.2, by rw [← h3, ← hp]; rfl⟩

/-- On Monday at midnight the calendar finds the first period of the week. -/
theorem rulesAt_monday {c : Calendar} {o b : Int} (hr : Regular c o) (hb : (b - o) % week = 0) : ∃ rid rem,
    rulesAt c b = some ({ c with periodEnd := b + c.period, opIndex := 0 }, rid, rem) ∧ On { c with periodEnd := b + c.period, opIndex := 0 } o b rid rem := by
  obtain ⟨hw, hck, hpos, hno⟩ := hr
  cases hps : c.periodicals with
  | nil =>
    rw [hps] at hck
    simp [checkPeriodicals, checkPeriodicals.go, week] at hck
  | cons p ps =>
    have h0 : p.begin_ = 0 := (go_at c.periodicals 0 hck hpos).2.1 p (by rw [hps]; rfl)
    have hd := hpos p (by rw [hps]; simp)
    have hpo := pos_eq hw b
    rw [hb] at hpo
    have hwo : c.weekOrigin b = b := by omega
    have hidx : findIndex (b - c.weekOrigin b) c.periodicals 0 = 0 := by
      rw [hpo, hps]
      unfold findIndex
      rw [if_pos (by omega)]
    refine ⟨p.rulesId, p.dur, ?_, hd, p, ?_, rfl, by omega, by omega⟩
    · unfold rulesAt periodicalRulesAt
      dsimp only
      rw [hidx, hwo, hps]
      simp [applyOneshot, hno, oneshotAt]
    · rfl

/-- **C109, partial.** A timeline built on a Monday at midnight, with a calendar whose periods tile the week and no one-shot period: the construction succeeds, changes nothing but the rules, and at each
date of the timeline before the end of the horizon of the calendar the rules are those in force; each slot has the rules of its number; from the horizon on a slot has either no rules yet or those in force. Missing: the other days, on which the
construction raises or applies other rules (`raises_violated`, `wrong_rules_violated`), and the one-shot periods (`oneshot_violated`). -/
theorem calendar_timeline_partial (ctx : Ctx) (c : Calendar) (o : Int) (ss : SlotSet) (s : Slot) (hc : ctx.cal = some c) (hr : Regular c o) (hwf : WF ss) (hss : ss.slots = [s]) (hid : s.id = 1)
    (hq : s.q.rulesId = -1) (hb : (ss.begin_ - o) % week = 0) :
    ∃ ctx' ss', ss.initCalendar ctx = some (ctx', ss') ∧ WF ss' ∧ SamePay ss ss' ∧ ss'.begin_ = ss.begin_ ∧ ss'.end_ = ss.end_ ∧ RulesOk c.rulesList ss' ∧
      (∀ t, ss.begin_ ≤ t → t ≤ ss.end_ → t < ss.begin_ + c.period → ∃ r : Nat, RulesAt ss' t r ∧ InForce c t r) ∧
      ∀ t r, RulesAt ss' t r → r = -1 ∨ ∃ n : Nat, r = n ∧ InForce c t n := by
  obtain ⟨ch, hch⟩ := id hwf
  have hone : ch = [s] := by
    have := hch.perm
    rw [hss] at this
    exact (List.perm_singleton.1 this.symm)
  subst hone
  have hsb : s.b = ss.begin_ := hch.tiled.1
  have hse : s.e = ss.end_ := by
    have := hch.tiled.2.2
    simp only [Tiled] at this
    omega
  have hnext : s.next = 0 := hch.linked.2.1
  obtain ⟨rid, rem, h1, h2⟩ := rulesAt_monday hr hb
  have hget : ss.get? 1 = some s := by rw [← hid]; exact hch.get (by simp)
  have hp : Partition ss ([] ++ s :: []) := hch
  obtain ⟨x, i, h3, h4, h5, h6, h7⟩ := slice o _ { ctx with cal := some { c with periodEnd := ss.begin_ + c.period, opIndex := 0 } } { c with periodEnd := ss.begin_ + c.period, opIndex := 0 } ss [] [] s rid rem rfl hr (hsb ▸ h2) hp (Nat.le_refl _)
  have hok0 : RulesOk c.rulesList ss := by
    intro y hy r hyr
    rw [hss] at hy
    rw [List.mem_singleton.1 hy, hq] at hyr
    omega
  have hok := slice_rules c.rulesList _ _ { c with periodEnd := ss.begin_ + c.period, opIndex := 0 } ss s.id rid rem x rfl rfl hok0 h3
  have hrem := h2.1
  rw [hid] at h3
  have hcl : ss.initCalendar ctx = some (x.1, x.2.1) := by
    unfold SlotSet.initCalendar
    rw [hc, hget]
    dsimp only
    rw [if_pos hq, h1]
    dsimp only
    rw [hss]
    show SlotSet.calendarLoop 2 _ ss 1 (some rid) rem = _
    unfold SlotSet.calendarLoop
    rw [if_pos ⟨by decide, by omega⟩, hget]
    dsimp only
    rw [h3]
    dsimp only
    unfold SlotSet.calendarLoop
    rw [if_neg (by rw [hnext]; simp)]
  have hrule : ∀ t p', x.2.1.pay t = some p' → (ss.begin_ + c.period ≤ t ∧ p'.rulesId = -1) ∨ ∃ r : Nat, p'.rulesId = r ∧ InForce c t r := by
    intro t p' hp'
    obtain ⟨p, hpt, h8⟩ := h7 t p' hp'
    have hin := (pay_isSome_iff hwf t).1 (by rw [hpt]; rfl)
    rcases h8 with ⟨e, h8⟩ | ⟨_, _, r, e, hf⟩
    · left
      refine ⟨?_, ?_⟩
      · rcases h8 with h8 | h8 | h8
        · omega
        · omega
        · exact h8
      · subst e
        unfold SlotSet.pay payAt at hpt
        rw [hss] at hpt
        cases hf : [s].find? (fun s => s.has t) with
        | none => rw [hf] at hpt; cases hpt
        | some y =>
          rw [hf, Option.map_some, Option.some.injEq] at hpt
          have := List.mem_of_find?_eq_some hf
          rw [List.mem_singleton.1 this] at hpt
          rw [← hpt]; exact hq
    · exact Or.inr ⟨r, by rw [e], hf⟩
  refine ⟨x.1, x.2.1, hcl, h5, ?_, h6.1, h6.2.1, hok, ?_, ?_⟩
  · intro t
    cases hp' : x.2.1.pay t with
    | none =>
      have hn : ¬ (x.2.1.begin_ ≤ t ∧ t ≤ x.2.1.end_) := fun hh => by
        have := (pay_isSome_iff h5 t).2 hh
        rw [hp'] at this; cases this
      rw [h6.1, h6.2.1] at hn
      cases hp0 : ss.pay t with
      | none => rfl
      | some p => exact absurd ((pay_isSome_iff hwf t).1 (by rw [hp0]; rfl)) hn
    | some p' =>
      obtain ⟨p, hpt, h8⟩ := h7 t p' hp'
      rw [hpt]
      rcases h8 with ⟨e, _⟩ | ⟨_, _, r, e, _⟩
      · rw [e]
      · rw [e]; rfl
  · intro t b1 b2 b3
    obtain ⟨p', hp'⟩ := Option.isSome_iff_exists.1 ((pay_isSome_iff h5 t).2 (by rw [h6.1, h6.2.1]; exact ⟨b1, b2⟩))
    rcases hrule t p' hp' with ⟨h8, _⟩ | ⟨r, h8, h9⟩
    · omega
    · exact ⟨r, (rulesAt_iff h5 t r).2 ⟨p', hp', h8⟩, h9⟩
  · intro t r hra
    obtain ⟨p', hp', h8⟩ := (rulesAt_iff h5 t r).1 hra
    rcases hrule t p' hp' with ⟨_, h9⟩ | ⟨n, h9, h10⟩
    · exact Or.inl (h8.symm.trans h9)
    · exact Or.inr ⟨n, h8.symm.trans h9, h10⟩

/-- **C109.** Inserting a job changes the rules at no date. -/
theorem insertion_keeps_rules (ctx : Ctx) (ss ss' : SlotSet) (job : Job) (w : Int) (R : ProcSet) (sub : Bool) (hwf : WF ss) (hw : 1 ≤ w) (hjw : job.walltime = some w) (hjr : job.resSet = some R)
    (h1 : ss.begin_ ≤ job.startTime + w) (h2 : job.startTime ≤ ss.end_) (h : ss.splitJobs ctx [job] sub = some ss') (t r : Int) : RulesAt ss' t r ↔ RulesAt ss t r := by
  obtain ⟨ss1, extra, e1, e2, _, _, e5⟩ := insert_pointwise ctx ss job w R sub hwf hw hjw hjr h1 h2
  rw [h, Option.some.injEq] at e1
  subst e1
  rw [rulesAt_iff hwf, rulesAt_iff e2, e5 t]
  have hk : ∀ p, (effect ctx job w R sub p).rulesId = p.rulesId := by
    intro p
    have := (rules_effect ctx job w R sub p.toSlot).1
    cases sub
    · exact this
    · exact this
  cases ss.pay t with
  | none => simp
  | some p =>
    simp only [Option.map_some, Option.some.injEq, exists_eq_left']
    split
    · rw [hk]
    · rfl

/-! ### The other days, the one-shot periods -/

/-- **C109, violated.** When the periods last at most `D` seconds (a day, say) and the construction takes place more than `D` seconds after Monday at midnight, the construction raises: the time left in the
period found is negative, and the slot cannot be split before its begin. -/
theorem raises_violated (ctx : Ctx) (c : Calendar) (o D : Int) (ss : SlotSet) (s : Slot) (hc : ctx.cal = some c) (hr : Regular c o) (hwf : WF ss) (hss : ss.slots = [s]) (hid : s.id = 1)
    (hq : s.q.rulesId = -1) (hD : ∀ p ∈ c.periodicals, p.dur ≤ D) (hb : D < (ss.begin_ - o) % week) : ss.initCalendar ctx = none := by
  obtain ⟨ch, hch⟩ := id hwf
  have hone : ch = [s] := by
    have := hch.perm
    rw [hss] at this
    exact (List.perm_singleton.1 this.symm)
  subst hone
  have hsb : s.b = ss.begin_ := hch.tiled.1
  have hse := (tiled_bounds _ _ _ hch.tiled).2 s (by simp)
  have hget : ss.get? 1 = some s := by rw [← hid]; exact hch.get (by simp)
  obtain ⟨hw, hck, hpos, hno⟩ := hr
  have hpo := pos_eq hw ss.begin_
  unfold SlotSet.initCalendar
  rw [hc, hget]
  dsimp only
  rw [if_pos hq]
  unfold rulesAt periodicalRulesAt
  dsimp only
  cases hp : c.periodicals[findIndex (ss.begin_ - c.weekOrigin ss.begin_) c.periodicals 0]? with
  | none => rfl
  | some p =>
    have hpd := hD p (List.mem_of_getElem? hp)
    simp only [applyOneshot, hno, oneshotAt]
    rw [hss]
    show SlotSet.calendarLoop 2 _ ss 1 (some p.rulesId) _ = none
    unfold SlotSet.calendarLoop
    rw [if_pos ⟨by decide, by omega⟩, hget]
    dsimp only
    have hf : (s.e - s.b + 1).toNat = (s.e - s.b).toNat + 1 := by omega
    rw [hf]
    unfold SlotSet.temporalSplit
    rw [hget]
    dsimp only
    rw [if_neg (by omega)]
    have hsp : ∀ ctx', ss.splitAfter ctx' 1 (s.b + (p.dur - (ss.begin_ - c.weekOrigin ss.begin_))) = none := by
      intro ctx'
      unfold SlotSet.splitAfter
      rw [if_neg (by decide), hget]
      dsimp only
      rw [if_pos (by omega)]
    rw [hsp]

/-- The rules 0 from Monday to Friday, the rules 1 at the week-end; weeks counted from date 0. -/
def workWeek (os : List Oneshot) : Calendar :=
  ⟨1209600, 1209600, [⟨0, 432000, 0⟩, ⟨432000, 172800, 1⟩], os, [[(⟨"*", "*", "*", "/"⟩, ⟨2, -1, -1⟩)], [(⟨"*", "*", "*", "/"⟩, ⟨4, -1, -1⟩)], []], 0, 0, fun t => t / week * week⟩

/-- The scheduler with such a calendar. -/
def workCtx (os : List Oneshot) : Ctx := ⟨⟨true, [], ["*"], {1, 2, 3, 4}⟩, some (workWeek os)⟩

/-- A new timeline from date `b`. -/
def fresh (b : Int) : SlotSet := SlotSet.ofItvs (workCtx []) {1, 2, 3, 4} b

theorem workWeek_regular : Regular (workWeek []) 0 := by
  refine ⟨fun t => ?_, by decide, by decide, rfl⟩
  show t / week * week = 0 + (t - 0) / week * week
  rw [Int.sub_zero, Int.zero_add]

theorem fresh_wf (b : Int) (h : b ≤ maxTime) : WF (fresh b) := by
  refine ⟨(fresh b).slots, ⟨List.Perm.refl _, by simp [fresh, SlotSet.ofItvs], by simp [fresh, SlotSet.ofItvs], ?_, by simp [fresh, SlotSet.ofItvs, Linked, hd], ?_⟩⟩
  · intro s hs
    simp only [fresh, SlotSet.ofItvs, List.mem_singleton] at hs
    subst hs
    exact ⟨Nat.zero_lt_one, Nat.le_refl _⟩
  · simp only [fresh, SlotSet.ofItvs, Tiled]
    exact ⟨trivial, h, trivial⟩

/-- The hypotheses of `calendar_timeline_partial` hold of a new timeline on a Monday. -/
example : ∃ ctx' ss', (fresh 604800).initCalendar (workCtx []) = some (ctx', ss') ∧ RulesAt ss' 1036800 1 := by
  obtain ⟨ctx', ss', h1, _, _, _, _, _, h2, _⟩ := calendar_timeline_partial (workCtx []) (workWeek []) 0 (fresh 604800) _ rfl workWeek_regular (fresh_wf _ (by decide)) rfl rfl rfl (by decide)
  obtain ⟨r, h3, p, hp, hpr, hp'⟩ := h2 1036800 (by decide) (by decide) (by decide)
  refine ⟨ctx', ss', h1, ?_⟩
  have hm : p = ⟨0, 432000, 0⟩ ∨ p = ⟨432000, 172800, 1⟩ := by simpa [workWeek] using hp
  rcases hm with rfl | rfl
  · exact absurd hp' (by unfold Periodical.Contains; decide)
  · rw [← hpr] at h3; exact h3

/-- The hypotheses of `raises_violated` hold of a new timeline on a Saturday at one in the morning. -/
example : (fresh (5 * 86400 + 3600)).initCalendar (workCtx []) = none :=
  raises_violated (workCtx []) (workWeek []) 0 432000 (fresh (5 * 86400 + 3600)) _ rfl workWeek_regular (fresh_wf _ (by decide)) rfl rfl rfl (by decide) (by decide)

/-- Read the result of the construction. -/
theorem rulesAt_of_list {r : Option (Ctx × SlotSet)} {L : List (Int × Int × Int)} (h : r.map (fun x => x.2.slots.map (fun s => (s.b, s.e, s.q.rulesId))) = some L) :
    ∃ ctx' ss', r = some (ctx', ss') ∧ ∀ t b e q, (b, e, q) ∈ L → b ≤ t → t ≤ e → RulesAt ss' t q := by
  cases r with
  | none => cases h
  | some x =>
    refine ⟨x.1, x.2, rfl, ?_⟩
    intro t b e q hm h1 h2
    rw [Option.map_some, Option.some.injEq] at h
    rw [← h] at hm
    obtain ⟨s, hs, he⟩ := List.mem_map.1 hm
    simp only [Prod.mk.injEq] at he
    exact ⟨s, hs, by omega, by omega, he.2.2⟩

/-- The rules of `workWeek` in force. -/
theorem inForce_workWeek (os : List Oneshot) (t : Int) (r : Nat) : InForce (workWeek os) t r ↔ (t % week < 432000 ∧ r = 0) ∨ (432000 ≤ t % week ∧ r = 1) := by
  have hw : t - (workWeek os).weekOrigin t = t % week := by
    show t - t / week * week = _
    have := Int.emod_add_mul_ediv t week
    have e : t / week * week = week * (t / week) := Int.mul_comm _ _
    omega
  have h0 : 0 ≤ t % week ∧ t % week < week := by simp only [week]; omega
  have hww : week = 604800 := rfl
  unfold InForce
  rw [hw]
  simp only [workWeek, List.mem_cons, List.not_mem_nil, or_false, exists_eq_or_imp, exists_eq_left, Periodical.Contains]
  omega

/-- **C109, violated.** One hour after Monday at midnight the timeline begins with the rules of the week-end, which are not in force, and has them for two days. -/
theorem wrong_rules_violated : ∃ ctx' ss', (fresh 3600).initCalendar (workCtx []) = some (ctx', ss') ∧
    ∀ t, 3600 ≤ t → t < 172800 → RulesAt ss' t 1 ∧ InForce (workWeek []) t 0 ∧ ¬ InForce (workWeek []) t 1 := by
  have h : ((fresh 3600).initCalendar (workCtx [])).map (fun x => x.2.slots.map (fun s => (s.b, s.e, s.q.rulesId))) =
      some [(3600, 172799, 1), (172800, 604799, 0), (604800, 777599, 1), (777600, 1209599, 0), (1209600, 2147483648, -1)] := by decide +kernel
  obtain ⟨ctx', ss', h1, h2⟩ := rulesAt_of_list h
  refine ⟨ctx', ss', h1, fun t h3 h4 => ⟨h2 t 3600 172799 1 (by decide) h3 (by omega), ?_, ?_⟩⟩
  · rw [inForce_workWeek]; simp [week]; omega
  · rw [inForce_workWeek]; simp [week]; omega

/-- **C109, violated.** Even on a Monday at midnight: after a one-shot period on Wednesday, the timeline has the rules of the working days all the week-end long. -/
theorem oneshot_violated : ∃ ctx' ss', (fresh 0).initCalendar (workCtx [⟨172800, 259200, 2⟩]) = some (ctx', ss') ∧
    (∀ t, 172800 ≤ t → t < 259200 → RulesAt ss' t 2) ∧
    ∀ t, 432000 ≤ t → t < 604800 → RulesAt ss' t 0 ∧ InForce (workWeek [⟨172800, 259200, 2⟩]) t 1 ∧ ¬ InForce (workWeek [⟨172800, 259200, 2⟩]) t 0 := by
  have h : ((fresh 0).initCalendar (workCtx [⟨172800, 259200, 2⟩])).map (fun x => x.2.slots.map (fun s => (s.b, s.e, s.q.rulesId))) =
      some [(0, 172799, 0), (172800, 259199, 2), (259200, 691199, 0), (691200, 863999, 1), (864000, 1295999, 0), (1296000, 2147483648, -1)] := by decide +kernel
  obtain ⟨ctx', ss', h1, h2⟩ := rulesAt_of_list h
  refine ⟨ctx', ss', h1, fun t h3 h4 => h2 t 172800 259199 2 (by decide) h3 (by omega), fun t h3 h4 => ⟨h2 t 259200 691199 0 (by decide) (by omega) (by omega), ?_, ?_⟩⟩
  · rw [inForce_workWeek]; simp [week]; omega
  · rw [inForce_workWeek]; simp [week]; omega

/-! ### During the search -/

/-- **C109.** During the search, the timeline is left alone when the slot has its rules; the search gives up past the window of the calendar; without a calendar nothing happens. -/
theorem search_keeps_rules (ctx : Ctx) (ss : SlotSet) (b e : Slot) (c : Calendar) (hc : ctx.cal = some c) :
    (b.b + c.windowLimit < e.e → quotasPrepare ctx ss b e = some none) ∧
    (e.e ≤ b.b + c.windowLimit → e.q.rulesId ≠ -1 → quotasPrepare ctx ss b e = some (some (ctx, ss))) := by
  unfold quotasPrepare
  rw [hc]
  dsimp only
  exact ⟨fun h => by rw [if_pos (by omega)], fun h h' => by rw [if_neg (by omega), if_neg h']⟩

/-- **C109, partial.** During the search, a slot without rules that begins on a Monday at midnight gets the rules in force (up to the horizon); nothing else changes. Missing: as in `calendar_timeline_partial`. -/
theorem search_rules_partial (ctx : Ctx) (ss : SlotSet) (l r : List Slot) (b e : Slot) (c : Calendar) (o : Int) (hc : ctx.cal = some c) (hr : Regular c o) (hp : Partition ss (l ++ e :: r))
    (hw : e.e ≤ b.b + c.windowLimit) (hq : e.q.rulesId = -1) (hb : (e.b - o) % week = 0) : ∃ ctx' ss', quotasPrepare ctx ss b e = some (some (ctx', ss')) ∧ WF ss' ∧ SamePay ss ss' ∧
      (∀ t, (t < e.b ∨ e.e < t) → ∀ q, RulesAt ss' t q ↔ RulesAt ss t q) ∧
      (∀ t, e.b ≤ t → t ≤ e.e → t < e.b + c.period → ∃ n : Nat, RulesAt ss' t n ∧ InForce c t n) := by
  have hwf : WF ss := ⟨_, hp⟩
  obtain ⟨rid, rem, h1, h2⟩ := rulesAt_monday hr hb
  obtain ⟨x, i, h3, h4, h5, h6, h7⟩ := slice o _ { ctx with cal := some { c with periodEnd := e.b + c.period, opIndex := 0 } } { c with periodEnd := e.b + c.period, opIndex := 0 } ss l r e rid rem rfl hr h2 hp
    (Nat.le_refl _)
  have hdom : ∀ t, ((x.2.1.pay t).isSome ↔ (ss.pay t).isSome) := by
    intro t
    rw [pay_isSome_iff h5, pay_isSome_iff hwf, h6.1, h6.2.1]
  refine ⟨x.1, x.2.1, ?_, h5, ?_, ?_, ?_⟩
  · unfold quotasPrepare
    rw [hc]
    dsimp only
    rw [if_neg (by omega), if_pos hq, h1]
    dsimp only
    rw [h3]
  · intro t
    cases hp' : x.2.1.pay t with
    | none =>
      cases hp0 : ss.pay t with
      | none => rfl
      | some p =>
        have := (hdom t).2 (by rw [hp0]; rfl)
        rw [hp'] at this; cases this
    | some p' =>
      obtain ⟨p, hpt, h8⟩ := h7 t p' hp'
      rw [hpt]
      rcases h8 with ⟨e, _⟩ | ⟨_, _, r, e, _⟩
      · rw [e]
      · rw [e]; rfl
  · intro t ht q
    rw [rulesAt_iff h5, rulesAt_iff hwf]
    constructor
    · rintro ⟨p', hp', rfl⟩
      obtain ⟨p, hpt, h8⟩ := h7 t p' hp'
      rcases h8 with ⟨e, _⟩ | ⟨_, _, _⟩
      · exact ⟨p, hpt, by rw [e]⟩
      · omega
    · rintro ⟨p, hpt, rfl⟩
      obtain ⟨p', hp'⟩ := Option.isSome_iff_exists.1 ((hdom t).2 (by rw [hpt]; rfl))
      obtain ⟨p1, hpt1, h8⟩ := h7 t p' hp'
      rw [hpt, Option.some.injEq] at hpt1
      subst hpt1
      rcases h8 with ⟨e, _⟩ | ⟨_, _, _⟩
      · exact ⟨p', hp', by rw [e]⟩
      · omega
  · intro t b1 b2 b3
    have hpt : ss.pay t = some e.pay := by
      rw [pay_chain hp]
      exact payAt_of_mem hp.tiled (by simp) b1 b2
    obtain ⟨p', hp'⟩ := Option.isSome_iff_exists.1 ((hdom t).2 (by rw [hpt]; rfl))
    obtain ⟨p1, hpt1, h8⟩ := h7 t p' hp'
    rcases h8 with ⟨_, h8⟩ | ⟨_, _, n, h8, h9⟩
    · have h8' : t < e.b ∨ e.e < t ∨ e.b + c.period ≤ t := h8
      omega
    · exact ⟨n, (rulesAt_iff h5 t n).2 ⟨p', hp', by rw [h8]⟩, h9⟩

/-- The hypotheses of `search_rules_partial` hold of a new timeline on a Monday, seen from a window that contains it. -/
example : ∃ ctx' ss', quotasPrepare (workCtx []) { fresh 0 with end_ := 86399, slots := [⟨1, 0, 0, {1, 2}, 0, 86399, [], [], freshQuotas (workCtx [])⟩] } ⟨1, 0, 0, {1, 2}, 0, 86399, [], [], freshQuotas (workCtx [])⟩
    ⟨1, 0, 0, {1, 2}, 0, 86399, [], [], freshQuotas (workCtx [])⟩ = some (some (ctx', ss')) := by
  obtain ⟨ctx', ss', h, _⟩ := search_rules_partial (workCtx []) { fresh 0 with end_ := 86399, slots := [⟨1, 0, 0, {1, 2}, 0, 86399, [], [], freshQuotas (workCtx [])⟩] } [] []
    ⟨1, 0, 0, {1, 2}, 0, 86399, [], [], freshQuotas (workCtx [])⟩ ⟨1, 0, 0, {1, 2}, 0, 86399, [], [], freshQuotas (workCtx [])⟩ (workWeek []) 0 rfl workWeek_regular
    ⟨List.Perm.refl _, by simp, by simp, by simp [fresh, SlotSet.ofItvs], by simp [Linked, hd], by simp [Tiled, fresh, SlotSet.ofItvs]⟩ (by decide) rfl (by decide)
  exact ⟨ctx', ss', h⟩

end Oar.Kao.Temporal
