import Verif.SlotSplit

/-!
# Pointwise content of a timeline, and `split_slots`
-/

namespace Oar.Kao
open Spec

/-- What a slot says about each of its dates (everything but identity, links, bounds and the rules
dictionary, which is determined by the rules id). -/
structure Pay where
  itvs : ProcSet
  ts : List (String × List (String × ProcSet))
  ph : List (String × ProcSet)
  counters : Quotas.Counters
  rulesId : Int
  deriving DecidableEq

/-- The content of a slot. -/
def Slot.pay (s : Slot) : Pay := ⟨s.itvs, s.ts, s.ph, s.q.counters, s.q.rulesId⟩

/-- `t` lies in slot `s`. -/
def Slot.has (s : Slot) (t : Int) : Bool := decide (s.b ≤ t ∧ t ≤ s.e)

/-- The content of the chain at date `t`. -/
def payAt (c : List Slot) (t : Int) : Option Pay := (c.find? (fun s => s.has t)).map Slot.pay

theorem has_iff {s : Slot} {t : Int} : s.has t = true ↔ s.b ≤ t ∧ t ≤ s.e := by simp [Slot.has]

theorem payAt_nil (t : Int) : payAt [] t = none := rfl

theorem payAt_cons (s : Slot) (r : List Slot) (t : Int) :
    payAt (s :: r) t = if s.b ≤ t ∧ t ≤ s.e then some s.pay else payAt r t := by
  by_cases h : s.b ≤ t ∧ t ≤ s.e
  · rw [payAt, List.find?_cons_of_pos (by simp [Slot.has, h]), if_pos h]; rfl
  · rw [payAt, List.find?_cons_of_neg (by simp only [Slot.has, decide_eq_true_eq]; exact h), if_neg h]; rfl

theorem payAt_append (l r : List Slot) (t : Int) : payAt (l ++ r) t = (payAt l t).or (payAt r t) := by
  induction l with
  | nil => rfl
  | cons s l ih =>
    rw [List.cons_append, payAt_cons, payAt_cons, ih]
    split <;> rfl

theorem pay_core (s : Slot) : s.core.pay = s.pay := rfl

theorem payAt_core (c : List Slot) (t : Int) : payAt (c.map Slot.core) t = payAt c t := by
  induction c with
  | nil => rfl
  | cons s r ih => rw [List.map_cons, payAt_cons, payAt_cons, ih]; rfl

theorem payAt_congr {c c' : List Slot} (h : SameCore c' c) (t : Int) : payAt c' t = payAt c t := by
  rw [← payAt_core c', h, payAt_core]

theorem payAt_none_of {c : List Slot} {lo hi t : Int} (h : Tiled lo c hi) (ht : t < lo ∨ hi < t) :
    payAt c t = none := by
  have hb := (tiled_bounds c lo hi h).2
  rw [payAt, List.find?_eq_none.2]
  · rfl
  · intro s hs
    have := hb s hs
    simp only [Slot.has, decide_eq_true_eq]
    omega

theorem payAt_some_of {c : List Slot} {lo hi t : Int} (h : Tiled lo c hi) (h1 : lo ≤ t) (h2 : t ≤ hi) :
    ∃ s ∈ c, s.b ≤ t ∧ t ≤ s.e ∧ payAt c t = some s.pay := by
  cases e : c.find? (fun s => s.has t) with
  | none =>
    obtain ⟨l, s, r, rfl, h3, h4⟩ := tiled_cover c lo hi t h h1 h2
    have := List.find?_eq_none.1 e s (by simp)
    simp only [Slot.has, decide_eq_true_eq] at this
    omega
  | some s =>
    have h3 := List.find?_some e
    rw [has_iff] at h3
    exact ⟨s, List.mem_of_find?_eq_some e, h3.1, h3.2, by rw [payAt, e]; rfl⟩

theorem payAt_of_mem {c : List Slot} {lo hi t : Int} (h : Tiled lo c hi) {s : Slot} (hs : s ∈ c)
    (h1 : s.b ≤ t) (h2 : t ≤ s.e) : payAt c t = some s.pay := by
  have hb := (tiled_bounds c lo hi h).2 s hs
  obtain ⟨s', hs', h3, h4, h5⟩ := payAt_some_of h (t := t) (by omega) (by omega)
  rw [h5, tiled_unique c lo hi t h s' s hs' hs h3 h4 h1 h2]

/-- The pointwise content of a timeline. -/
def _root_.Oar.Kao.SlotSet.pay (ss : SlotSet) (t : Int) : Option Pay := payAt ss.slots t

theorem mem_of_payAt {c : List Slot} {t : Int} {p : Pay} (h : payAt c t = some p) :
    ∃ s ∈ c, s.b ≤ t ∧ t ≤ s.e ∧ s.pay = p := by
  rw [payAt] at h
  cases e : c.find? (fun s => s.has t) with
  | none => rw [e] at h; simp at h
  | some s =>
    rw [e] at h
    have h3 := List.find?_some e
    rw [has_iff] at h3
    exact ⟨s, List.mem_of_find?_eq_some e, h3.1, h3.2, Option.some.inj h⟩

theorem pay_chain {ss : SlotSet} {c : List Slot} (h : Partition ss c) (t : Int) :
    ss.pay t = payAt c t := by
  unfold SlotSet.pay
  cases e : payAt ss.slots t with
  | none =>
    cases e' : payAt c t with
    | none => rfl
    | some p =>
      exfalso
      obtain ⟨s, hs, h1, h2, _⟩ := mem_of_payAt e'
      rw [payAt, Option.map_eq_none_iff, List.find?_eq_none] at e
      have := e s (h.mem_iff.2 hs)
      simp only [Slot.has, decide_eq_true_eq] at this
      exact this ⟨h1, h2⟩
  | some p =>
    obtain ⟨s, hs, h1, h2, rfl⟩ := mem_of_payAt e
    exact (payAt_of_mem h.tiled (h.mem_iff.1 hs) h1 h2).symm

/-- `Free` in terms of the pointwise content. -/
theorem free_iff {ss : SlotSet} (h : WF ss) (t : Int) (x : Nat) :
    Free ss t x ↔ ∃ p, ss.pay t = some p ∧ x ∈ p.itvs := by
  obtain ⟨c, hc⟩ := h
  constructor
  · rintro ⟨s, hs, h1, h2, hx⟩
    refine ⟨s.pay, ?_, hx⟩
    rw [pay_chain hc]; exact payAt_of_mem hc.tiled (hc.mem_iff.1 hs) h1 h2
  · rintro ⟨p, hp, hx⟩
    obtain ⟨s, hs, h1, h2, rfl⟩ := mem_of_payAt hp
    exact ⟨s, hs, h1, h2, hx⟩

/-- The dates of the timeline are `[begin, end]`. -/
theorem pay_isSome_iff {ss : SlotSet} (h : WF ss) (t : Int) :
    (ss.pay t).isSome ↔ ss.begin_ ≤ t ∧ t ≤ ss.end_ := by
  obtain ⟨c, hc⟩ := h
  rw [pay_chain hc]
  constructor
  · intro hs
    by_contra hn
    rw [payAt_none_of hc.tiled (by omega)] at hs
    simp at hs
  · rintro ⟨h1, h2⟩
    obtain ⟨s, _, _, _, e⟩ := payAt_some_of hc.tiled h1 h2
    rw [e]; rfl

/-! ## `split_at_after` and `split_at_before` do not change the content -/

theorem copyFrom_pay (ctx : Ctx) (s : Slot) (i p n : Nat) (b e : Int) : (copyFrom ctx s i p n b e).pay = s.pay :=
  rfl

theorem payAt_cons_core {s s' : Slot} {r r' : List Slot} {t : Int} (h : s'.core = s.core)
    (hr : payAt r' t = payAt r t) : payAt (s' :: r') t = payAt (s :: r) t := by
  have := core_eq_iff.1 h
  rw [payAt_cons, payAt_cons, hr, this.2.2.1, this.2.2.2.1]
  congr 1
  · rw [← pay_core s', h, pay_core]

theorem splitAfter_pay {ctx : Ctx} {ss ss' : SlotSet} {l r r' : List Slot} {s s' n : Slot} {date : Int}
    (h : Partition ss (l ++ s :: r)) (h' : Partition ss' (l ++ s' :: n :: r')) (h1 : s.b ≤ date)
    (h2 : date ≤ s.e) (hlt : s.b < s.e) (hr : SameCore r' r)
    (hs : s'.core = { s.core with e := (if s.b = date then date else date - 1) })
    (hn : n.core = copyFrom ctx s (ss.lastId + 1) 0 0 (if s.b = date then s.b + 1 else date) s.e) (t : Int) :
    ss'.pay t = ss.pay t := by
  rw [pay_chain h', pay_chain h, payAt_append, payAt_append]
  congr 1
  rw [payAt_cons, payAt_cons, payAt_cons, payAt_congr hr]
  have e1 : s'.pay = s.pay := by rw [← pay_core s', hs]; rfl
  have e2 : n.pay = s.pay := by rw [← pay_core n, hn]; rfl
  have b1 : s'.b = s.b := by have := congrArg Slot.b hs; exact this
  have b2 : s'.e = if s.b = date then date else date - 1 := by have := congrArg Slot.e hs; exact this
  have b3 : n.b = if s.b = date then s.b + 1 else date := by have := congrArg Slot.b hn; exact this
  have b4 : n.e = s.e := by have := congrArg Slot.e hn; exact this
  rw [e1, e2, b1, b2, b3, b4]
  by_cases hd : s.b = date
  · simp only [if_pos hd]
    by_cases c1 : s.b ≤ t ∧ t ≤ date
    · rw [if_pos c1, if_pos (by omega)]
    · rw [if_neg c1]
      by_cases c2 : s.b + 1 ≤ t ∧ t ≤ s.e
      · rw [if_pos c2, if_pos (by omega)]
      · rw [if_neg c2, if_neg (by omega)]
  · simp only [if_neg hd]
    by_cases c1 : s.b ≤ t ∧ t ≤ date - 1
    · rw [if_pos c1, if_pos (by omega)]
    · rw [if_neg c1]
      by_cases c2 : date ≤ t ∧ t ≤ s.e
      · rw [if_pos c2, if_pos (by omega)]
      · rw [if_neg c2, if_neg (by omega)]

theorem splitBefore_pay {ctx : Ctx} {ss ss' : SlotSet} {l l' r : List Slot} {s s' n : Slot} {date : Int}
    (h : Partition ss (l ++ s :: r)) (h' : Partition ss' (l' ++ n :: s' :: r)) (h1 : s.b ≤ date)
    (h2 : date ≤ s.e) (hlt : s.b < s.e) (hl : SameCore l' l)
    (hs : s'.core = { s.core with b := (if s.b = date then s.b + 1 else date) })
    (hn : n.core = copyFrom ctx s (ss.lastId + 1) 0 0 s.b (if s.b = date then s.b else date - 1)) (t : Int) :
    ss'.pay t = ss.pay t := by
  rw [pay_chain h', pay_chain h, payAt_append, payAt_append, payAt_congr hl]
  congr 1
  rw [payAt_cons, payAt_cons, payAt_cons]
  have e1 : s'.pay = s.pay := by rw [← pay_core s', hs]; rfl
  have e2 : n.pay = s.pay := by rw [← pay_core n, hn]; rfl
  have b1 : s'.e = s.e := by have := congrArg Slot.e hs; exact this
  have b2 : s'.b = if s.b = date then s.b + 1 else date := by have := congrArg Slot.b hs; exact this
  have b3 : n.e = if s.b = date then s.b else date - 1 := by have := congrArg Slot.e hn; exact this
  have b4 : n.b = s.b := by have := congrArg Slot.b hn; exact this
  rw [e1, e2, b1, b2, b3, b4]
  by_cases hd : s.b = date
  · simp only [if_pos hd]
    by_cases c1 : s.b ≤ t ∧ t ≤ s.b
    · rw [if_pos c1, if_pos (by omega)]
    · rw [if_neg c1]
      by_cases c2 : s.b + 1 ≤ t ∧ t ≤ s.e
      · rw [if_pos c2, if_pos (by omega)]
      · rw [if_neg c2, if_neg (by omega)]
  · simp only [if_neg hd]
    by_cases c1 : s.b ≤ t ∧ t ≤ date - 1
    · rw [if_pos c1, if_pos (by omega)]
    · rw [if_neg c1]
      by_cases c2 : date ≤ t ∧ t ≤ s.e
      · rw [if_pos c2, if_pos (by omega)]
      · rw [if_neg c2, if_neg (by omega)]

/-! ## modifying slots in place -/

/-- `f` only changes the content of a slot. -/
def Keeps (f : Slot → Slot) : Prop :=
  ∀ s, (f s).id = s.id ∧ (f s).prev = s.prev ∧ (f s).next = s.next ∧ (f s).b = s.b ∧ (f s).e = s.e

theorem modify_part {ss : SlotSet} {l r : List Slot} {s : Slot} {f : Slot → Slot} (hf : Keeps f)
    (h : Partition ss (l ++ s :: r)) : Partition (ss.modify s.id f) (l ++ f s :: r) := by
  have hnd := h.ids
  simp only [List.map_append, List.map_cons, List.nodup_append, List.nodup_cons] at hnd
  have hsl : s.id ∉ l.map Slot.id := fun hm => hnd.2.2 s.id hm s.id (by simp) rfl
  have hsr : s.id ∉ r.map Slot.id := hnd.2.1.1
  have e : (l ++ s :: r).map (fun x => if x.id = s.id then f x else x) = l ++ f s :: r := by
    rw [List.map_append, List.map_cons, map_upd_of_not_mem hsl, map_upd_of_not_mem hsr, if_pos rfl]
  obtain ⟨k1, k2, k3, k4, k5⟩ := hf s
  have hid : (l ++ f s :: r).map Slot.id = (l ++ s :: r).map Slot.id := by
    simp [k1]
  refine ⟨e ▸ h.perm.map _, by simp, hid ▸ h.ids, ?_, ?_, ?_⟩
  · intro x hx
    have : ∀ i ∈ (l ++ f s :: r).map Slot.id, 0 < i ∧ i ≤ ss.lastId := by
      rw [hid]; intro i hi
      obtain ⟨y, hy, rfl⟩ := List.mem_map.1 hi
      exact h.range y hy
    exact this _ (List.mem_map_of_mem hx)
  · have := (linked_append l (s :: r) 0 0).1 h.linked
    refine (linked_append l (f s :: r) 0 0).2 ⟨?_, ?_⟩
    · have : hd 0 (f s :: r) = hd 0 (s :: r) := k1
      rw [this]; exact ((linked_append l (s :: r) 0 0).1 h.linked).1
    · exact ⟨k2 ▸ this.2.1, k3 ▸ this.2.2.1, k1 ▸ this.2.2.2⟩
  · have ht := (tiled_append l (s :: r) _ _).1 h.tiled
    obtain ⟨m, g1, g2, g3, g4⟩ := ht
    exact (tiled_append l (f s :: r) _ _).2 ⟨m, g1, k4 ▸ g2, by rw [k4, k5]; exact g3, by rw [k5]; exact g4⟩

theorem applyList_part {f : Slot → Slot} (hf : Keeps f) : ∀ (M l r : List Slot) (ss : SlotSet),
    Partition ss (l ++ M ++ r) →
    Partition (M.foldl (fun s x => s.modify x.id f) ss) (l ++ M.map f ++ r) ∧
    (M.foldl (fun s x => s.modify x.id f) ss).lastId = ss.lastId ∧
    (M.foldl (fun s x => s.modify x.id f) ss).begin_ = ss.begin_ ∧
    (M.foldl (fun s x => s.modify x.id f) ss).end_ = ss.end_ ∧
    (M.foldl (fun s x => s.modify x.id f) ss).cache = ss.cache
  | [], l, r, ss, h => ⟨by simpa using h, rfl, rfl, rfl, rfl⟩
  | s :: M, l, r, ss, h => by
    have h1 : Partition ss (l ++ s :: (M ++ r)) := by simpa using h
    have h2 := modify_part hf h1
    obtain ⟨g1, g2, g3, g4, g5⟩ := applyList_part hf M (l ++ [f s]) r (ss.modify s.id f) (by simpa using h2)
    refine ⟨?_, ?_, ?_, ?_, ?_⟩
    · simpa using g1
    · exact g2
    · exact g3
    · exact g4
    · exact g5

theorem payAt_map {f : Slot → Slot} (hf : Keeps f) {g : Pay → Pay} (hg : ∀ s, (f s).pay = g s.pay)
    (M : List Slot) (t : Int) : payAt (M.map f) t = (payAt M t).map g := by
  induction M with
  | nil => rfl
  | cons s M ih =>
    obtain ⟨k1, k2, k3, k4, k5⟩ := hf s
    rw [List.map_cons, payAt_cons, payAt_cons, ih, k4, k5, hg]
    split <;> rfl

end Oar.Kao
