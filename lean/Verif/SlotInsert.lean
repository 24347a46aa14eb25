import Verif.SlotPay

/-!
# `split_slots`, pointwise
-/

namespace Oar.Kao
open Spec

/-- The rules of the slots of `ss'` come from those of `ss` (possibly reloaded from the calendar). -/
def RulesFrom (ctx : Ctx) (ss ss' : SlotSet) : Prop :=
  ∀ s' ∈ ss'.slots, ∃ s ∈ ss.slots, s'.q.rulesId = s.q.rulesId ∧
    (s'.q.rules = s.q.rules ∨ s'.q.rules = setRules ctx s.q.rulesId ctx.env.defaultRules)

theorem RulesFrom.refl (ctx : Ctx) (ss : SlotSet) : RulesFrom ctx ss ss :=
  fun s hs => ⟨s, hs, rfl, Or.inl rfl⟩

theorem RulesFrom.trans {ctx : Ctx} {a b c : SlotSet} (h1 : RulesFrom ctx a b) (h2 : RulesFrom ctx b c) :
    RulesFrom ctx a c := by
  intro s hs
  obtain ⟨s', hs', e1, e2⟩ := h2 s hs
  obtain ⟨s'', hs'', e3, e4⟩ := h1 s' hs'
  refine ⟨s'', hs'', e1.trans e3, ?_⟩
  rcases e2 with e2 | e2
  · rw [e2]; exact e4
  · right; rw [e2, e3]

/-- Every slot of `ss` is still there with the same begin date. -/
def KeepsBegins (ss ss' : SlotSet) : Prop :=
  ∀ s ∈ ss.slots, ∃ s' ∈ ss'.slots, s'.id = s.id ∧ s'.b = s.b

theorem KeepsBegins.refl (ss : SlotSet) : KeepsBegins ss ss := fun s hs => ⟨s, hs, rfl, rfl⟩

theorem KeepsBegins.trans {a b c : SlotSet} (h1 : KeepsBegins a b) (h2 : KeepsBegins b c) :
    KeepsBegins a c := by
  intro s hs
  obtain ⟨s', hs', e1, e2⟩ := h1 s hs
  obtain ⟨s'', hs'', e3, e4⟩ := h2 s' hs'
  exact ⟨s'', hs'', e3.trans e1, e4.trans e2⟩

theorem sameCore_mem {c c' : List Slot} (h : SameCore c' c) {s : Slot} (hs : s ∈ c) :
    ∃ s' ∈ c', s'.core = s.core := by
  have : s.core ∈ c'.map Slot.core := by rw [h]; exact List.mem_map_of_mem hs
  obtain ⟨s', h1, h2⟩ := List.mem_map.1 this
  exact ⟨s', h1, h2⟩

/-- Same bookkeeping attributes. -/
def SameMeta (ss ss' : SlotSet) : Prop :=
  ss'.begin_ = ss.begin_ ∧ ss'.end_ = ss.end_ ∧ ss'.cache = ss.cache

theorem leftStep {ctx : Ctx} {ss : SlotSet} {l r : List Slot} {s : Slot} {start : Int}
    (h : Partition ss (l ++ s :: r)) (hl : s.b < start → start ≤ s.e) :
    ∃ ss1 l1 s1, (if s.b < start then (ss.splitBefore ctx s.id start).map (fun x => (x.1, x.2.2))
        else some (ss, s.id)) = some (ss1, s.id) ∧
      Partition ss1 (l1 ++ s1 :: r) ∧ s1.core = { s.core with b := max s.b start } ∧
      (∀ t, ss1.pay t = ss.pay t) ∧ SameMeta ss ss1 ∧ RulesFrom ctx ss ss1 ∧
      (start ≤ s.b → KeepsBegins ss ss1) := by
  by_cases hb : s.b < start
  · have hle := hl hb
    obtain ⟨ss1, s1, n, l1, e1, hp, hc, hs1, hn, hlast, hbg, hen, hca⟩ :=
      splitBefore_part (ctx := ctx) (date := start) h (by omega) hle (by omega)
    refine ⟨ss1, l1 ++ [n], s1, ?_, by simpa using hp, ?_, ?_, ⟨hbg, hen, hca⟩, ?_, by omega⟩
    · rw [if_pos hb, e1]; rfl
    · rw [hs1, if_neg (by omega), max_eq_right (by omega)]
    · exact splitBefore_pay h hp (by omega) hle (by omega) hc hs1 hn
    · intro x hx
      have hx' := hp.mem_iff.1 hx
      simp only [List.mem_append, List.mem_cons] at hx'
      rcases hx' with hx' | rfl | rfl | hx'
      · obtain ⟨y, hy, e⟩ := sameCore_mem (Eq.symm hc) hx'
        have := core_eq_iff.1 e
        exact ⟨y, h.mem_iff.2 (by simp [hy]), by rw [this.2.2.2.2.2.2], Or.inl (by rw [this.2.2.2.2.2.2])⟩
      · refine ⟨s, h.mem_iff.2 (by simp), ?_, Or.inr ?_⟩
        · have := congrArg (fun z => z.q.rulesId) hn; exact this
        · have := congrArg (fun z => z.q.rules) hn; exact this
      · refine ⟨s, h.mem_iff.2 (by simp), ?_, Or.inl ?_⟩
        · have := congrArg (fun z => z.q.rulesId) hs1; exact this
        · have := congrArg (fun z => z.q.rules) hs1; exact this
      · exact ⟨x, h.mem_iff.2 (by simp [hx']), rfl, Or.inl rfl⟩
  · refine ⟨ss, l, s, by rw [if_neg hb], h, ?_, fun _ => rfl, ⟨rfl, rfl, rfl⟩, RulesFrom.refl _ _,
      fun _ => KeepsBegins.refl _⟩
    rw [max_eq_left (by omega)]; rfl

/-- End of the reserved part of the right slot. -/
def rightEnd (b e stop : Int) : Int := if e > stop then (if b = stop then stop else stop - 1) else e

theorem rightStep {ctx : Ctx} {ss : SlotSet} {l r : List Slot} {s : Slot} {stop : Int}
    (h : Partition ss (l ++ s :: r)) (hr : s.e > stop → s.b ≤ stop) :
    ∃ ss2 r2 s2, (if s.e > stop then (ss.splitAfter ctx s.id stop).map (fun x => (x.1, x.2.1))
        else some (ss, s.id)) = some (ss2, s.id) ∧
      Partition ss2 (l ++ s2 :: r2) ∧ s2.core = { s.core with e := rightEnd s.b s.e stop } ∧
      (∀ t, ss2.pay t = ss.pay t) ∧ SameMeta ss ss2 ∧ RulesFrom ctx ss ss2 ∧ KeepsBegins ss ss2 := by
  by_cases hb : s.e > stop
  · have hle := hr hb
    obtain ⟨ss1, s1, n, r1, e1, hp, hc, hs1, hn, hlast, hbg, hen, hca⟩ :=
      splitAfter_part (ctx := ctx) (date := stop) h hle (by omega) (by omega)
    refine ⟨ss1, n :: r1, s1, ?_, hp, ?_, ?_, ⟨hbg, hen, hca⟩, ?_, ?_⟩
    · rw [if_pos hb, e1]; rfl
    · rw [hs1]; simp only [rightEnd, if_pos hb]
    · exact splitAfter_pay h hp hle (by omega) (by omega) hc hs1 hn
    · intro x hx
      have hx' := hp.mem_iff.1 hx
      simp only [List.mem_append, List.mem_cons] at hx'
      rcases hx' with hx' | rfl | rfl | hx'
      · exact ⟨x, h.mem_iff.2 (by simp [hx']), rfl, Or.inl rfl⟩
      · refine ⟨s, h.mem_iff.2 (by simp), ?_, Or.inl ?_⟩
        · have := congrArg (fun z => z.q.rulesId) hs1; exact this
        · have := congrArg (fun z => z.q.rules) hs1; exact this
      · refine ⟨s, h.mem_iff.2 (by simp), ?_, Or.inr ?_⟩
        · have := congrArg (fun z => z.q.rulesId) hn; exact this
        · have := congrArg (fun z => z.q.rules) hn; exact this
      · obtain ⟨y, hy, e⟩ := sameCore_mem (Eq.symm hc) hx'
        have := core_eq_iff.1 e
        exact ⟨y, h.mem_iff.2 (by simp [hy]), by rw [this.2.2.2.2.2.2], Or.inl (by rw [this.2.2.2.2.2.2])⟩
    · intro x hx
      have hx' := h.mem_iff.1 hx
      simp only [List.mem_append, List.mem_cons] at hx'
      rcases hx' with hx' | rfl | hx'
      · exact ⟨x, hp.mem_iff.2 (by simp [hx']), rfl, rfl⟩
      · refine ⟨s1, hp.mem_iff.2 (by simp), ?_, ?_⟩
        · have := congrArg Slot.id hs1; exact this
        · have := congrArg Slot.b hs1; exact this
      · obtain ⟨y, hy, e⟩ := sameCore_mem hc hx'
        have := core_eq_iff.1 e
        exact ⟨y, hp.mem_iff.2 (by simp [hy]), this.1, this.2.2.1⟩
  · refine ⟨ss, r, s, by rw [if_neg hb], h, ?_, fun _ => rfl, ⟨rfl, rfl, rfl⟩, RulesFrom.refl _ _,
      KeepsBegins.refl _⟩
    simp only [rightEnd, if_neg hb]; rfl

theorem traverse_range {ss : SlotSet} {l t i r : List Slot} {a z : Slot}
    (h : Partition ss (l ++ (a :: t) ++ r)) (e : a :: t = i ++ [z]) :
    ss.traverse a.id z.id = a :: t := by
  cases i with
  | nil =>
    simp only [List.nil_append, List.cons.injEq] at e
    obtain ⟨rfl, rfl⟩ := e
    exact traverse_one h (by simp)
  | cons x i =>
    simp only [List.cons_append, List.cons.injEq] at e
    obtain ⟨rfl, rfl⟩ := e
    rw [traverse_seg h (l := l) (m := i) (r := r) (by simp)]

theorem applyRange_part {ss : SlotSet} {l t i r : List Slot} {a z : Slot} {f : Slot → Slot} (hf : Keeps f)
    (h : Partition ss (l ++ (a :: t) ++ r)) (e : a :: t = i ++ [z]) :
    Partition (ss.applyRange a.id z.id f) (l ++ (a :: t).map f ++ r) ∧
    SameMeta ss (ss.applyRange a.id z.id f) := by
  obtain ⟨g1, _, g3, g4, g5⟩ := applyList_part hf (a :: t) l r ss h
  rw [SlotSet.applyRange, traverse_range h e]
  exact ⟨g1, g3, g4, g5⟩

theorem tiled_seg {l M r : List Slot} {lo hi : Int} (h : Tiled lo (l ++ M ++ r) hi) :
    ∃ m m', Tiled lo l (m - 1) ∧ Tiled m M m' ∧ Tiled (m' + 1) r hi := by
  rw [tiled_append] at h
  obtain ⟨m', h1, h2⟩ := h
  rw [tiled_append] at h1
  obtain ⟨m, h3, h4⟩ := h1
  exact ⟨m, m' - 1, h3, h4, by simpa using h2⟩

theorem tiled_last : ∀ (i : List Slot) (z : Slot) (lo hi : Int), Tiled lo (i ++ [z]) hi → hi = z.e := by
  intro i z lo hi h
  rw [tiled_append] at h
  obtain ⟨m, _, _, _, h3⟩ := h
  simp only [Tiled] at h3
  omega

/-- Content after modifying the slots of a segment. -/
theorem applyRange_pay {ss : SlotSet} {l t i r : List Slot} {a z : Slot} {f : Slot → Slot} {g : Pay → Pay}
    (hf : Keeps f) (hg : ∀ s, (f s).pay = g s.pay)
    (h : Partition ss (l ++ (a :: t) ++ r)) (e : a :: t = i ++ [z]) (u : Int) :
    (ss.applyRange a.id z.id f).pay u =
      (ss.pay u).map (fun p => if a.b ≤ u ∧ u ≤ z.e then g p else p) := by
  rw [pay_chain (applyRange_part hf h e).1, pay_chain h]
  rw [payAt_append, payAt_append, payAt_append, payAt_append, payAt_map hf hg]
  obtain ⟨m, m', h1, h2, h3⟩ := tiled_seg h.tiled
  have hm : a.b = m := h2.1
  have hm' : m' = z.e := tiled_last i z m m' (e ▸ h2)
  have hbd := (tiled_bounds _ _ _ h2).1
  by_cases hu : a.b ≤ u ∧ u ≤ z.e
  · rw [payAt_none_of h1 (t := u) (by omega), payAt_none_of h3 (t := u) (by omega)]
    simp only [hu, if_true, Option.none_or, Option.or_none, and_self]
  · rw [payAt_none_of h2 (t := u) (by omega)]
    simp only [hu, if_false, Option.map_none, Option.or_none, Option.map_id']

/-- `split_slots` on a segment of the chain whose first slot is `a` and last slot is `z`. -/
theorem splitSlots_core2 {ctx : Ctx} {ss : SlotSet} {l t i r : List Slot} {a z : Slot} {job : Job} {w : Int}
    {R : ProcSet} {sub : Bool} {g : Pay → Pay}
    (hf : Keeps (if sub then subSlot ctx job w R else addSlot job R))
    (hg : ∀ s, ((if sub then subSlot ctx job w R else addSlot job R) s).pay = g s.pay)
    (hq : ∀ s, ((if sub then subSlot ctx job w R else addSlot job R) s).q.rulesId = s.q.rulesId ∧
      ((if sub then subSlot ctx job w R else addSlot job R) s).q.rules = s.q.rules)
    (h : Partition ss (l ++ (a :: t) ++ r)) (e : a :: t = i ++ [z]) (hw : 1 ≤ w)
    (hl : a.b < job.startTime → job.startTime ≤ a.e)
    (hr : z.e > job.startTime + w → z.b ≤ job.startTime + w) :
    ∃ ss', ss.splitSlots ctx a.id z.id job w R sub = some ss' ∧ WF ss' ∧ SameMeta ss ss' ∧
      RulesFrom ctx ss ss' ∧ (job.startTime ≤ a.b → KeepsBegins ss ss') ∧
      (∃ a' ∈ ss'.slots, a'.id = a.id ∧ a'.b = max a.b job.startTime) ∧
      (∀ u, ss'.pay u = (ss.pay u).map (fun p =>
        if max a.b job.startTime ≤ u ∧ u ≤ rightEnd z.b z.e (job.startTime + w) then g p else p)) ∧
      ∃ z' ∈ ss'.slots, z'.e = rightEnd z.b z.e (job.startTime + w) ∧ (z'.b = z.b ∨ z'.b = job.startTime) := by
  have hA : Partition ss (l ++ a :: (t ++ r)) := by simpa using h
  obtain ⟨ss1, l1, a1, e1, p1, c1, pay1, meta1, rf1, kb1⟩ := leftStep (ctx := ctx) hA hl
  have ca := core_eq_iff.1 (show a1.core = Slot.core { a with b := max a.b job.startTime } from c1)
  -- the segment after the left split
  have hseg : ∃ i1 z1, a1 :: t = i1 ++ [z1] ∧ z1.id = z.id ∧ z1.e = z.e ∧
      rightEnd z1.b z1.e (job.startTime + w) = rightEnd z.b z.e (job.startTime + w) ∧
      (z1.e > job.startTime + w → z1.b ≤ job.startTime + w) ∧ (z1.b = z.b ∨ z1.b = job.startTime) := by
    cases i with
    | nil =>
      simp only [List.nil_append, List.cons.injEq] at e
      obtain ⟨rfl, rfl⟩ := e
      refine ⟨[], a1, rfl, ca.1, ca.2.2.2.1, ?_, ?_, ?_⟩
      · have hb : a1.b = max a.b job.startTime := ca.2.2.1
        have he : a1.e = a.e := ca.2.2.2.1
        rw [hb, he]
        unfold rightEnd
        by_cases hgt : a.e > job.startTime + w
        · have := hr hgt
          by_cases hlt : a.b < job.startTime
          · have hne : ¬ max a.b job.startTime = job.startTime + w := by omega
            simp only [if_pos hgt]
            rw [if_neg hne, if_neg (by omega)]
          · rw [max_eq_left (by omega)]
        · rw [if_neg hgt, if_neg hgt]
      · intro hgt
        have hb : a1.b = max a.b job.startTime := ca.2.2.1
        have he : a1.e = a.e := ca.2.2.2.1
        have := hr (by rw [← he]; exact hgt)
        omega
      · have hb : a1.b = max a.b job.startTime := ca.2.2.1
        omega
    | cons x i =>
      simp only [List.cons_append, List.cons.injEq] at e
      obtain ⟨rfl, rfl⟩ := e
      exact ⟨a1 :: i, z, rfl, rfl, rfl, rfl, hr, Or.inl rfl⟩
  obtain ⟨i1, z1, e1', hzid, hze, hzend, hzr, hzb⟩ := hseg
  have p1' : Partition ss1 ((l1 ++ i1) ++ z1 :: r) := by
    have : l1 ++ a1 :: (t ++ r) = (l1 ++ i1) ++ z1 :: r := by
      rw [← List.cons_append, e1']; simp
    rw [← this]; exact p1
  obtain ⟨ss2, r2, z2, e2, p2, c2, pay2, meta2, rf2, kb2⟩ := rightStep (ctx := ctx) p1' hzr
  have cz := core_eq_iff.1
    (show z2.core = Slot.core { z1 with e := rightEnd z1.b z1.e (job.startTime + w) } from c2)
  -- the segment after both splits
  obtain ⟨a2, t2, e3, hab, haid⟩ : ∃ a2 t2, i1 ++ [z2] = a2 :: t2 ∧ a2.b = a1.b ∧ a2.id = a1.id := by
    cases i1 with
    | nil =>
      simp only [List.nil_append, List.cons.injEq] at e1'
      obtain ⟨rfl, rfl⟩ := e1'
      exact ⟨z2, [], rfl, cz.2.2.1, cz.1⟩
    | cons x i1 =>
      simp only [List.cons_append, List.cons.injEq] at e1'
      obtain ⟨rfl, rfl⟩ := e1'
      exact ⟨a1, i1 ++ [z2], rfl, rfl, rfl⟩
  have p2' : Partition ss2 (l1 ++ (a2 :: t2) ++ r2) := by
    have : (l1 ++ i1) ++ z2 :: r2 = l1 ++ (a2 :: t2) ++ r2 := by rw [← e3]; simp
    rw [← this]; exact p2
  obtain ⟨p3, meta3⟩ := applyRange_part hf p2' e3.symm
  have ha1id : a1.id = a.id := ca.1
  have hz2id : z2.id = z.id := cz.1.trans hzid
  refine ⟨ss2.applyRange a2.id z2.id (if sub then subSlot ctx job w R else addSlot job R), ?_, ⟨_, p3⟩, ?_, ?_,
    ?_, ?_, ?_, ?_⟩
  · unfold SlotSet.splitSlots
    rw [hA.get (s := a) (by simp)]
    simp only [e1]
    have hg1 : ss1.get? z.id = some z1 := by
      rw [← hzid]; exact p1'.get (by simp)
    simp only [hg1]
    rw [hzid] at e2
    simp only [e2]
    rw [haid, ha1id, hz2id]
  · exact ⟨meta3.1.trans (meta2.1.trans meta1.1), meta3.2.1.trans (meta2.2.1.trans meta1.2.1),
      meta3.2.2.trans (meta2.2.2.trans meta1.2.2)⟩
  · refine (rf1.trans rf2).trans ?_
    intro x hx
    have hx' := p3.mem_iff.1 hx
    simp only [List.mem_append] at hx'
    rcases hx' with (hx' | hx') | hx'
    · exact ⟨x, p2'.mem_iff.2 (by simp [hx']), rfl, Or.inl rfl⟩
    · obtain ⟨y, hy, rfl⟩ := List.mem_map.1 hx'
      exact ⟨y, p2'.mem_iff.2 (by
        rw [List.append_assoc, List.mem_append, List.mem_append]; exact Or.inr (Or.inl hy)), (hq y).1,
        Or.inl (hq y).2⟩
    · exact ⟨x, p2'.mem_iff.2 (by simp [hx']), rfl, Or.inl rfl⟩
  · intro hs
    refine ((kb1 hs).trans kb2).trans ?_
    intro x hx
    have hx' := p2'.mem_iff.1 hx
    simp only [List.mem_append] at hx'
    rcases hx' with (hx' | hx') | hx'
    · exact ⟨x, p3.mem_iff.2 (by simp [hx']), rfl, rfl⟩
    · refine ⟨_, p3.mem_iff.2 ?_, (hf x).1, (hf x).2.2.2.1⟩
      rw [List.append_assoc, List.mem_append, List.mem_append]
      exact Or.inr (Or.inl (List.mem_map_of_mem hx'))
    · exact ⟨x, p3.mem_iff.2 (by simp [hx']), rfl, rfl⟩
  · refine ⟨_, p3.mem_iff.2 ?_, ((hf a2).1.trans haid).trans ha1id, ?_⟩
    · rw [List.append_assoc, List.mem_append, List.mem_append]
      exact Or.inr (Or.inl (List.mem_map_of_mem (by simp)))
    · rw [(hf a2).2.2.2.1, hab]; exact ca.2.2.1
  · intro u
    rw [applyRange_pay hf hg p2' e3.symm, pay2, pay1]
    have hb : a2.b = max a.b job.startTime := hab.trans ca.2.2.1
    have he : z2.e = rightEnd z.b z.e (job.startTime + w) := by
      have : z2.e = rightEnd z1.b z1.e (job.startTime + w) := cz.2.2.2.1
      rw [this, hzend]
    rw [hb, he]
  · have he : z2.e = rightEnd z.b z.e (job.startTime + w) := by
      have : z2.e = rightEnd z1.b z1.e (job.startTime + w) := cz.2.2.2.1
      rw [this, hzend]
    refine ⟨_, p3.mem_iff.2 ?_, (hf z2).2.2.2.2.trans he, ?_⟩
    · rw [List.append_assoc, List.mem_append, List.mem_append]
      exact Or.inr (Or.inl (List.mem_map_of_mem (by rw [← e3]; simp)))
    · rw [(hf z2).2.2.2.1]
      have : z2.b = z1.b := cz.2.2.1
      rw [this]; exact hzb

theorem splitSlots_core {ctx : Ctx} {ss : SlotSet} {l t i r : List Slot} {a z : Slot} {job : Job} {w : Int}
    {R : ProcSet} {sub : Bool} {g : Pay → Pay}
    (hf : Keeps (if sub then subSlot ctx job w R else addSlot job R))
    (hg : ∀ s, ((if sub then subSlot ctx job w R else addSlot job R) s).pay = g s.pay)
    (hq : ∀ s, ((if sub then subSlot ctx job w R else addSlot job R) s).q.rulesId = s.q.rulesId ∧
      ((if sub then subSlot ctx job w R else addSlot job R) s).q.rules = s.q.rules)
    (h : Partition ss (l ++ (a :: t) ++ r)) (e : a :: t = i ++ [z]) (hw : 1 ≤ w)
    (hl : a.b < job.startTime → job.startTime ≤ a.e)
    (hr : z.e > job.startTime + w → z.b ≤ job.startTime + w) :
    ∃ ss', ss.splitSlots ctx a.id z.id job w R sub = some ss' ∧ WF ss' ∧ SameMeta ss ss' ∧
      RulesFrom ctx ss ss' ∧ (job.startTime ≤ a.b → KeepsBegins ss ss') ∧
      (∃ a' ∈ ss'.slots, a'.id = a.id ∧ a'.b = max a.b job.startTime) ∧
      ∀ u, ss'.pay u = (ss.pay u).map (fun p =>
        if max a.b job.startTime ≤ u ∧ u ≤ rightEnd z.b z.e (job.startTime + w) then g p else p) := by
  obtain ⟨ss', h1, h2, h3, h4, h5, h6, h7, _⟩ := splitSlots_core2 hf hg hq h e hw hl hr
  exact ⟨ss', h1, h2, h3, h4, h5, h6, h7⟩

end Oar.Kao
