import Verif.SlotProps
import Verif.SearchFit

/-!
# Temporal quotas splitting keeps the content of the timeline
-/

namespace Oar.Kao
open Spec

/-- The content of a slot but the quotas rules. -/
def Pay.noRules (p : Pay) : Pay := { p with rulesId := 0 }

/-- Same content at every date, up to quotas rules. -/
def SamePay (ss ss' : SlotSet) : Prop := ∀ t, (ss'.pay t).map Pay.noRules = (ss.pay t).map Pay.noRules

theorem SamePay.trans {a b c : SlotSet} (h1 : SamePay a b) (h2 : SamePay b c) : SamePay a c :=
  fun t => (h2 t).trans (h1 t)

theorem SamePay.free {ss ss' : SlotSet} (h : WF ss) (h' : WF ss') (hp : SamePay ss ss') (t : Int) (x : Nat) :
    Free ss' t x ↔ Free ss t x := by
  rw [free_iff h, free_iff h']
  have := hp t
  constructor
  · rintro ⟨p, e, hx⟩
    rw [e] at this
    cases e' : ss.pay t with
    | none => rw [e'] at this; simp at this
    | some q =>
      rw [e'] at this
      simp only [Option.map_some, Option.some.injEq] at this
      refine ⟨q, rfl, ?_⟩
      have h1 : p.itvs = q.itvs := by have := congrArg Pay.itvs this; exact this
      rwa [← h1]
  · rintro ⟨p, e, hx⟩
    rw [e] at this
    cases e' : ss'.pay t with
    | none => rw [e'] at this; simp at this
    | some q =>
      rw [e'] at this
      simp only [Option.map_some, Option.some.injEq] at this
      refine ⟨q, rfl, ?_⟩
      have h1 : q.itvs = p.itvs := by have := congrArg Pay.itvs this; exact this
      rwa [h1]

theorem SameMeta.trans {a b c : SlotSet} (h1 : SameMeta a b) (h2 : SameMeta b c) : SameMeta a c :=
  ⟨h2.1.trans h1.1, h2.2.1.trans h1.2.1, h2.2.2.trans h1.2.2⟩

theorem setRules_part {ctx : Ctx} {rid : Nat} {ss : SlotSet} {l r : List Slot} {s : Slot}
    (h : Partition ss (l ++ s :: r)) :
    Partition (ss.modify s.id (setSlotRules ctx rid)) (l ++ setSlotRules ctx rid s :: r) ∧
    SamePay ss (ss.modify s.id (setSlotRules ctx rid)) ∧ SameMeta ss (ss.modify s.id (setSlotRules ctx rid)) ∧
    KeepsBegins ss (ss.modify s.id (setSlotRules ctx rid)) := by
  have hp := modify_part (keeps_setSlotRules ctx rid) h
  refine ⟨hp, ?_, ⟨rfl, rfl, rfl⟩, ?_⟩
  · intro t
    rw [pay_chain hp, pay_chain h, payAt_append, payAt_append, payAt_cons, payAt_cons]
    cases payAt l t with
    | some p => rfl
    | none =>
      simp only [Option.none_or]
      by_cases hb : s.b ≤ t ∧ t ≤ s.e
      · rw [if_pos hb, if_pos (show (setSlotRules ctx rid s).b ≤ t ∧ t ≤ (setSlotRules ctx rid s).e from hb)]
        rfl
      · rw [if_neg hb, if_neg (show ¬ ((setSlotRules ctx rid s).b ≤ t ∧ t ≤ (setSlotRules ctx rid s).e) from hb)]
  · intro x hx
    have hx' := h.mem_iff.1 hx
    by_cases hxs : x = s
    · subst hxs
      exact ⟨setSlotRules ctx rid x, hp.mem_iff.2 (by simp), rfl, rfl⟩
    · refine ⟨x, hp.mem_iff.2 ?_, rfl, rfl⟩
      simp only [List.mem_append, List.mem_cons] at hx' ⊢
      tauto

theorem splitAfter_keep {ctx : Ctx} {ss ss1 : SlotSet} {l r : List Slot} {s : Slot} {date : Int} {i n : Nat}
    (h : Partition ss (l ++ s :: r)) (hs : ss.splitAfter ctx s.id date = some (ss1, i, n)) :
    (ss1 = ss ∧ n = s.id ∧ s.b = s.e) ∨
    ∃ s' m r', n = m.id ∧ Partition ss1 (l ++ s' :: m :: r') ∧ SamePay ss ss1 ∧ SameMeta ss ss1 ∧ KeepsBegins ss ss1 ∧
      s'.id = s.id ∧ s'.b = s.b ∧ s'.e ≤ s.e ∧ s'.itvs = s.itvs ∧ s'.ts = s.ts ∧ s'.ph = s.ph := by
  have h0 := (h.range s (by simp)).1
  have hg := h.get (s := s) (by simp)
  by_cases hin : date ≥ s.b ∧ date ≤ s.e
  · by_cases he : s.b = s.e
    · left
      unfold SlotSet.splitAfter at hs
      rw [if_neg (by omega), hg] at hs
      simp only [if_neg (not_not.2 hin), if_pos he, Option.some.injEq, Prod.mk.injEq] at hs
      exact ⟨hs.1.symm, hs.2.2.symm, he⟩
    · right
      have hb := (tiled_bounds _ _ _ h.tiled).2 s (by simp)
      obtain ⟨ss', s', m, r', e1, hp, hr, hs', hm, hl, hbg, hen, hca⟩ :=
        splitAfter_part (ctx := ctx) h hin.1 hin.2 (by omega)
      rw [e1] at hs
      simp only [Option.some.injEq, Prod.mk.injEq] at hs
      obtain ⟨rfl, rfl, rfl⟩ := hs
      have hs'' := core_eq_iff.1 (show s'.core = Slot.core { s with e := (if s.b = date then date else date - 1) } from hs')
      have hpay := splitAfter_pay h hp hin.1 hin.2 (by omega) hr hs' hm
      have hmid : m.id = ss.lastId + 1 := by have := congrArg Slot.id hm; exact this
      refine ⟨s', m, r', hmid.symm, hp, fun t => by rw [hpay t], ⟨hbg, hen, hca⟩, ?_, hs''.1, hs''.2.2.1, ?_, hs''.2.1,
        ?_, ?_⟩
      · intro x hx
        have hx' := h.mem_iff.1 hx
        simp only [List.mem_append, List.mem_cons] at hx'
        rcases hx' with hx' | rfl | hx'
        · exact ⟨x, hp.mem_iff.2 (by simp [hx']), rfl, rfl⟩
        · exact ⟨s', hp.mem_iff.2 (by simp), hs''.1, hs''.2.2.1⟩
        · obtain ⟨y, hy, hyc⟩ := sameCore_mem hr hx'
          have hyc := core_eq_iff.1 hyc
          exact ⟨y, hp.mem_iff.2 (by simp [hy]), hyc.1, hyc.2.2.1⟩
      · have he : s'.e = (if s.b = date then date else date - 1) := hs''.2.2.2.1
        rw [he]
        split <;> omega
      · exact hs''.2.2.2.2.1
      · exact hs''.2.2.2.2.2.1
  · unfold SlotSet.splitAfter at hs
    rw [if_neg (by omega), hg] at hs
    simp only [if_pos hin] at hs
    simp at hs

theorem temporalSplit_part : ∀ (fuel : Nat) (ctx : Ctx) (ss : SlotSet) (l r : List Slot) (s : Slot) (rid : Nat)
    (rem : Int) (x : Ctx × SlotSet × Option Nat × Int), Partition ss (l ++ s :: r) →
    SlotSet.temporalSplit fuel ctx ss s.id rid rem = some x →
    (∃ s' r', Partition x.2.1 (l ++ s' :: r') ∧ s'.id = s.id ∧ s'.b = s.b ∧ s'.e ≤ s.e ∧ s'.itvs = s.itvs ∧
      s'.ts = s.ts ∧ s'.ph = s.ph) ∧
    SamePay ss x.2.1 ∧ SameMeta ss x.2.1 ∧ KeepsBegins ss x.2.1 ∧ x.1.env = ctx.env
  | 0, _, _, _, _, _, _, _, _, _, h => by simp [SlotSet.temporalSplit] at h
  | fuel + 1, ctx, ss, l, r, s, rid, rem, x, hp, h => by
    unfold SlotSet.temporalSplit at h
    rw [hp.get (s := s) (by simp)] at h
    split at h
    · rename_i c slot hcal hget
      obtain rfl := Option.some.inj hget
      dsimp only at h
      by_cases hd : s.e - s.b + 1 ≤ rem
      · rw [if_pos hd, Option.some.injEq] at h
        subst h
        obtain ⟨g1, g2, g3, g4⟩ := setRules_part (ctx := ctx) (rid := rid) hp
        exact ⟨⟨_, r, g1, rfl, rfl, le_refl _, rfl, rfl, rfl⟩, g2, g3, g4, rfl⟩
      · rw [if_neg hd] at h
        cases hsp : SlotSet.splitAfter ctx ss s.id (s.b + rem) with
        | none => rw [hsp] at h; simp at h
        | some y =>
          obtain ⟨ss1, i, newId⟩ := y
          rw [hsp] at h
          dsimp only at h
          rcases splitAfter_keep hp hsp with ⟨rfl, rfl, hbe⟩ | ⟨s', m, r', rfl, k1, k2, k3, k4, k5, k6, k7, k8, k9, k10⟩
          · obtain ⟨g1, g2, g3, g4⟩ := setRules_part (ctx := ctx) (rid := rid) hp
            split at h
            · simp at h
            · split at h
              · simp at h
              · split at h
                · simp only [Option.some.injEq] at h
                  subst h
                  exact ⟨⟨_, r, g1, rfl, rfl, le_refl _, rfl, rfl, rfl⟩, g2, g3, g4, rfl⟩
                · split at h
                  · simp only [Option.some.injEq] at h
                    subst h
                    exact ⟨⟨_, r, g1, rfl, rfl, le_refl _, rfl, rfl, rfl⟩, g2, g3, g4, rfl⟩
                  · obtain ⟨⟨s2, r2, q1, q2, q3, q4, q5, q6, q7⟩, q8, q9, q10, q11⟩ :=
                      temporalSplit_part fuel _ _ l r (setSlotRules ctx rid s) _ _ x g1 h
                    exact ⟨⟨s2, r2, q1, q2, q3, q4, q5, q6, q7⟩, g2.trans q8, g3.trans q9, g4.trans q10, q11⟩
          · have k1' : Partition ss1 (l ++ s' :: (m :: r')) := k1
            obtain ⟨g1, g2, g3, g4⟩ := setRules_part (ctx := ctx) (rid := rid) k1'
            rw [k5] at g1 g2 g3 g4
            have f2 := k2.trans g2
            have f3 := k3.trans g3
            have f4 := k4.trans g4
            have fin : ∃ s2 r2, Partition (ss1.modify s.id (setSlotRules ctx rid)) (l ++ s2 :: r2) ∧ s2.id = s.id ∧
                s2.b = s.b ∧ s2.e ≤ s.e ∧ s2.itvs = s.itvs ∧ s2.ts = s.ts ∧ s2.ph = s.ph :=
              ⟨_, _, g1, k5, k6, k7, k8, k9, k10⟩
            split at h
            · simp at h
            · split at h
              · simp at h
              · split at h
                · simp only [Option.some.injEq] at h
                  subst h
                  exact ⟨fin, f2, f3, f4, rfl⟩
                · split at h
                  · simp only [Option.some.injEq] at h
                    subst h
                    exact ⟨fin, f2, f3, f4, rfl⟩
                  · have g1' : Partition (ss1.modify s.id (setSlotRules ctx rid))
                        ((l ++ [setSlotRules ctx rid s']) ++ m :: r') := by simpa using g1
                    obtain ⟨⟨s2, r2, q1, q2, q3, q4, q5, q6, q7⟩, q8, q9, q10, q11⟩ :=
                      temporalSplit_part fuel _ _ _ r' m _ _ x g1' h
                    refine ⟨⟨setSlotRules ctx rid s', s2 :: r2, by simpa using q1, k5, k6, k7, k8, k9, k10⟩,
                      f2.trans q8, f3.trans q9, f4.trans q10, q11⟩
    · simp at h

end Oar.Kao
