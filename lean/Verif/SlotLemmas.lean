import Verif.SlotSpec

/-!
# Lemmas about timelines
-/

namespace Oar.Kao
open Spec

/-! ## chains -/

/-- Id of the last slot of a chain, or `p` when it is empty. -/
def lst (p : Nat) : List Slot → Nat
  | [] => p
  | s :: r => lst s.id r

theorem hd_append (n : Nat) (l r : List Slot) : hd n (l ++ r) = hd (hd n r) l := by
  cases l <;> rfl

theorem linked_append (l r : List Slot) (p n : Nat) :
    Linked p (l ++ r) n ↔ Linked p l (hd n r) ∧ Linked (lst p l) r n := by
  induction l generalizing p with
  | nil => simp [Linked, lst]
  | cons s l ih =>
    simp only [List.cons_append, Linked, lst, ih, hd_append]
    tauto

theorem tiled_append (l r : List Slot) (lo hi : Int) :
    Tiled lo (l ++ r) hi ↔ ∃ m, Tiled lo l (m - 1) ∧ Tiled m r hi := by
  induction l generalizing lo with
  | nil =>
    simp only [List.nil_append, Tiled]
    constructor
    · intro h; exact ⟨lo, by omega, h⟩
    · rintro ⟨m, h1, h2⟩
      have : lo = m := by omega
      rw [this]; exact h2
  | cons s l ih =>
    simp only [List.cons_append, Tiled, ih]
    constructor
    · rintro ⟨h1, h2, m, h3, h4⟩; exact ⟨m, ⟨h1, h2, h3⟩, h4⟩
    · rintro ⟨m, ⟨h1, h2, h3⟩, h4⟩; exact ⟨h1, h2, m, h3, h4⟩

theorem tiled_bounds : ∀ (c : List Slot) (lo hi : Int), Tiled lo c hi →
    lo ≤ hi + 1 ∧ ∀ s ∈ c, lo ≤ s.b ∧ s.b ≤ s.e ∧ s.e ≤ hi
  | [], lo, hi, h => by simp only [Tiled] at h; simp; omega
  | s :: r, lo, hi, h => by
    obtain ⟨h1, h2, h3⟩ := h
    obtain ⟨g1, g2⟩ := tiled_bounds r _ _ h3
    refine ⟨by omega, ?_⟩
    intro x hx
    rcases List.mem_cons.1 hx with rfl | hx
    · omega
    · have := g2 x hx; omega

/-- In a tiled chain each date of the range is in a slot. -/
theorem tiled_cover : ∀ (c : List Slot) (lo hi t : Int), Tiled lo c hi → lo ≤ t → t ≤ hi →
    ∃ l s r, c = l ++ s :: r ∧ s.b ≤ t ∧ t ≤ s.e
  | [], lo, hi, t, h, h1, h2 => by simp only [Tiled] at h; omega
  | s :: r, lo, hi, t, h, h1, h2 => by
    obtain ⟨g1, g2, g3⟩ := h
    by_cases ht : t ≤ s.e
    · exact ⟨[], s, r, rfl, by omega, ht⟩
    · obtain ⟨l, s', r', e, h3, h4⟩ := tiled_cover r _ _ t g3 (by omega) h2
      exact ⟨s :: l, s', r', by rw [e]; rfl, h3, h4⟩

/-- Two slots of a tiled chain containing the same date are equal. -/
theorem tiled_unique (c : List Slot) (lo hi t : Int) (h : Tiled lo c hi) (s s' : Slot)
    (hs : s ∈ c) (hs' : s' ∈ c) (h1 : s.b ≤ t) (h2 : t ≤ s.e) (h3 : s'.b ≤ t) (h4 : t ≤ s'.e) :
    s = s' := by
  induction c generalizing lo with
  | nil => simp at hs
  | cons x r ih =>
    obtain ⟨g1, g2, g3⟩ := h
    have hb := (tiled_bounds r _ _ g3).2
    rcases List.mem_cons.1 hs with rfl | hs <;> rcases List.mem_cons.1 hs' with rfl | hs'
    · rfl
    · have := hb s' hs'; omega
    · rename_i hmem; have := hb s hmem; omega
    · exact ih _ g3 hs hs'

/-! ## access -/

theorem find?_of_nodup {c : List Slot} (h : (c.map Slot.id).Nodup) {s : Slot} (hs : s ∈ c) :
    c.find? (fun x => x.id == s.id) = some s := by
  induction c with
  | nil => simp at hs
  | cons x r ih =>
    rw [List.map_cons, List.nodup_cons] at h
    rcases List.mem_cons.1 hs with rfl | hs'
    · simp
    · have : x.id ≠ s.id := fun e => h.1 (by rw [e]; exact List.mem_map_of_mem hs')
      rw [List.find?_cons_of_neg (by simpa using this)]
      exact ih h.2 hs'

section
variable {ss : SlotSet} {c : List Slot}

theorem _root_.Oar.Kao.Spec.Partition.mem_iff (h : Partition ss c) {s : Slot} : s ∈ ss.slots ↔ s ∈ c :=
  h.perm.mem_iff

theorem _root_.Oar.Kao.Spec.Partition.length_eq (h : Partition ss c) : ss.slots.length = c.length :=
  h.perm.length_eq

theorem _root_.Oar.Kao.Spec.Partition.get (h : Partition ss c) {s : Slot} (hs : s ∈ c) :
    ss.get? s.id = some s :=
  find?_of_nodup (((h.perm.map Slot.id).nodup_iff).2 h.ids) (h.mem_iff.2 hs)

theorem get_mem {ss : SlotSet} {sid : Nat} {s : Slot} (h : ss.get? sid = some s) :
    s ∈ ss.slots ∧ s.id = sid := by
  have h1 := List.mem_of_find?_eq_some h
  have h2 := List.find?_some h
  exact ⟨h1, by simpa using h2⟩

theorem _root_.Oar.Kao.Spec.Partition.get_zero (h : Partition ss c) : ss.get? 0 = none := by
  cases e : ss.get? 0 with
  | none => rfl
  | some s =>
    obtain ⟨h1, h2⟩ := get_mem e
    have := (h.range s (h.mem_iff.1 h1)).1
    omega

theorem linked_prev_zero {c : List Slot} {p n : Nat} (h : Linked p c n) (hp : 0 < p)
    (hid : ∀ s ∈ c, 0 < s.id) : ∀ s ∈ c, s.prev ≠ 0 := by
  induction c generalizing p with
  | nil => simp
  | cons x r ih =>
    obtain ⟨h1, h2, h3⟩ := h
    intro s hs
    rcases List.mem_cons.1 hs with rfl | hs
    · omega
    · exact ih h3 (hid x (by simp)) (fun y hy => hid y (List.mem_cons_of_mem _ hy)) s hs

/-- The first slot. -/
theorem _root_.Oar.Kao.Spec.Partition.first {s : Slot} {r : List Slot} (h : Partition ss (s :: r)) :
    ss.first? = some s := by
  have hl := h.linked
  obtain ⟨h1, h2, h3⟩ := hl
  have hpos := fun x hx => (h.range x hx).1
  have hnz := linked_prev_zero h3 (hpos s (by simp)) (fun y hy => hpos y (List.mem_cons_of_mem _ hy))
  cases e : ss.first? with
  | none =>
    have := List.find?_eq_none.1 e s (h.mem_iff.2 (by simp))
    simp [h1] at this
  | some x =>
    have hx := h.mem_iff.1 (List.mem_of_find?_eq_some e)
    have hp : x.prev = 0 := by simpa using List.find?_some e
    rcases List.mem_cons.1 hx with rfl | hx
    · rfl
    · exact absurd hp (hnz x hx)

theorem _root_.Oar.Kao.Spec.Partition.link {l r : List Slot} {s : Slot}
    (h : Partition ss (l ++ s :: r)) : s.next = hd 0 r ∧ s.prev = lst 0 l := by
  have := (linked_append l (s :: r) 0 0).1 h.linked
  exact ⟨this.2.2.1, this.2.1⟩

theorem _root_.Oar.Kao.Spec.Partition.next_last {l : List Slot} {s : Slot}
    (h : Partition ss (l ++ [s])) : s.next = 0 := h.link.1

theorem _root_.Oar.Kao.Spec.Partition.next_cons {l r : List Slot} {s t : Slot}
    (h : Partition ss (l ++ s :: t :: r)) : s.next = t.id ∧ t.id ≠ 0 ∧ ss.get? s.next = some t := by
  have h1 := h.link.1
  have hm : t ∈ l ++ s :: t :: r := by simp
  have h2 := h.range t hm
  refine ⟨h1, by omega, ?_⟩
  rw [h1]; exact h.get hm

/-! ## walks -/

theorem walk_zero (h : Partition ss c) : ∀ (r l : List Slot) (s : Slot) (fuel : Nat),
    c = l ++ s :: r → r.length ≤ fuel → ss.walk 0 fuel s = s :: r
  | [], l, s, fuel, e, _ => by
    subst e
    have h0 := h.next_last
    cases fuel <;> simp [SlotSet.walk, h0]
  | t :: r, l, s, 0, e, hf => by simp at hf
  | t :: r, l, s, fuel + 1, e, hf => by
    have h' : Partition ss (l ++ s :: t :: r) := e ▸ h
    obtain ⟨h1, h2, h3⟩ := h'.next_cons
    have hs := (h'.range s (by simp)).1
    have ih := walk_zero h r (l ++ [s]) t fuel (by simp [e]) (by simpa using hf)
    rw [SlotSet.walk]
    have hcond : s.id ≠ 0 ∧ s.next ≠ 0 ∧ s.id ≠ 0 := ⟨by omega, by rw [h1]; exact h2, by omega⟩
    simp only [if_pos hcond, h3, ih]

theorem id_inj (h : Partition ss c) {s t : Slot} (hs : s ∈ c) (ht : t ∈ c) (e : s.id = t.id) : s = t := by
  have h1 := h.get hs
  rw [e, h.get ht] at h1
  exact (Option.some.inj h1).symm

theorem nodup_chain (h : Partition ss c) : c.Nodup := List.Nodup.of_map _ h.ids

theorem ne_of_split {l m r : List Slot} {s t : Slot} (h : Partition ss (l ++ s :: (m ++ t :: r))) :
    s.id ≠ t.id := by
  intro e
  have hst := id_inj h (by simp) (by simp) e
  subst hst
  have := nodup_chain h
  rw [List.nodup_append] at this
  have h2 := this.2.1
  rw [List.nodup_cons] at h2
  exact h2.1 (by simp)

theorem walk_end (h : Partition ss c) : ∀ (m l r : List Slot) (s t : Slot) (fuel : Nat),
    c = l ++ s :: (m ++ t :: r) → m.length + 1 ≤ fuel → ss.walk t.id fuel s = s :: (m ++ [t])
  | m, l, r, s, t, 0, e, hf => by omega
  | [], l, r, s, t, fuel + 1, e, hf => by
    subst e
    have hne := ne_of_split (m := []) h
    simp only [List.nil_append] at h
    obtain ⟨h1, h2, h3⟩ := h.next_cons
    have hs := (h.range s (by simp)).1
    have hcond : s.id ≠ 0 ∧ s.next ≠ 0 ∧ s.id ≠ t.id := ⟨by omega, by rw [h1]; exact h2, hne⟩
    rw [SlotSet.walk]
    simp only [if_pos hcond, h3, List.nil_append]
    cases fuel <;> simp [SlotSet.walk]
  | x :: m, l, r, s, t, fuel + 1, e, hf => by
    have h' : Partition ss (l ++ s :: (x :: m ++ t :: r)) := e ▸ h
    have hne := ne_of_split (m := x :: m) h'
    simp only [List.cons_append] at h'
    obtain ⟨h1, h2, h3⟩ := h'.next_cons
    have hs := (h'.range s (by simp)).1
    have ih := walk_end h m (l ++ [s]) r x t fuel (by simp [e]) (by simpa using hf)
    have hcond : s.id ≠ 0 ∧ s.next ≠ 0 ∧ s.id ≠ t.id := ⟨by omega, by rw [h1]; exact h2, hne⟩
    rw [SlotSet.walk]
    simp only [if_pos hcond, h3, ih, List.cons_append]

theorem walk_self (s : Slot) (fuel : Nat) : ss.walk s.id fuel s = [s] := by
  cases fuel <;> simp [SlotSet.walk]

theorem traverse_from (h : Partition ss c) {l r : List Slot} {s : Slot} (e : c = l ++ s :: r) :
    ss.traverse s.id 0 = s :: r := by
  have hm : s ∈ c := by rw [e]; simp
  have hs := (h.range s hm).1
  have hlen : r.length ≤ ss.slots.length := by rw [h.length_eq, e]; simp; omega
  simp only [SlotSet.traverse, ne_eq, not_true_eq_false, false_and, if_false, h.get hm,
    walk_zero h r l s _ e hlen]
  simp; omega

theorem traverse_all (h : Partition ss c) : ss.traverse 0 0 = c := by
  cases e : c with
  | nil => exact absurd e h.ne
  | cons s r =>
    subst e
    have hlen : r.length ≤ ss.slots.length := by rw [h.length_eq]; simp
    simp [SlotSet.traverse, h.first, walk_zero h r [] s _ rfl hlen]

theorem traverse_seg (h : Partition ss c) {l m r : List Slot} {s t : Slot}
    (e : c = l ++ s :: (m ++ t :: r)) : ss.traverse s.id t.id = s :: (m ++ [t]) := by
  have hm : s ∈ c := by rw [e]; simp
  have ht : t ∈ c := by rw [e]; simp
  have hs := (h.range s hm).1
  have hlen : m.length + 1 ≤ ss.slots.length := by rw [h.length_eq, e]; simp; omega
  simp only [SlotSet.traverse, h.get hm, h.get ht, walk_end h m l r s t _ e hlen]
  simp; omega

theorem traverse_one (h : Partition ss c) {s : Slot} (hs : s ∈ c) : ss.traverse s.id s.id = [s] := by
  have h0 := (h.range s hs).1
  simp only [SlotSet.traverse, h.get hs, walk_self]
  simp; omega

end

end Oar.Kao
