import Verif.SlotLemmas

/-!
# Splitting slots keeps a partition
-/

namespace Oar.Kao
open Spec

/-- A slot without its links. -/
def Slot.core (s : Slot) : Slot := { s with prev := 0, next := 0 }

theorem core_eq_iff {s t : Slot} : s.core = t.core ↔
    s.id = t.id ∧ s.itvs = t.itvs ∧ s.b = t.b ∧ s.e = t.e ∧ s.ts = t.ts ∧ s.ph = t.ph ∧ s.q = t.q := by
  obtain ⟨⟩ := s; obtain ⟨⟩ := t
  simp [Slot.core]

theorem tiled_core (c : List Slot) (lo hi : Int) : Tiled lo (c.map Slot.core) hi ↔ Tiled lo c hi := by
  induction c generalizing lo with
  | nil => rfl
  | cons s r ih => simp only [List.map_cons, Tiled, ih]; rfl

theorem tiled_congr {c c' : List Slot} (e : c'.map Slot.core = c.map Slot.core) (lo hi : Int) :
    Tiled lo c' hi ↔ Tiled lo c hi := by
  rw [← tiled_core c', e, tiled_core]

theorem ids_core (c : List Slot) : (c.map Slot.core).map Slot.id = c.map Slot.id := by
  rw [List.map_map]; rfl

theorem ids_congr {c c' : List Slot} (e : c'.map Slot.core = c.map Slot.core) :
    c'.map Slot.id = c.map Slot.id := by
  rw [← ids_core c', e, ids_core]

theorem hd_congr {c c' : List Slot} {n : Nat} (e : c'.map Slot.id = c.map Slot.id) : hd n c' = hd n c := by
  cases c <;> cases c' <;> simp_all [hd]

theorem map_upd_of_not_mem {l : List Slot} {sid : Nat} {f : Slot → Slot} (h : sid ∉ l.map Slot.id) :
    l.map (fun s => if s.id = sid then f s else s) = l := by
  rw [List.map_congr_left (g := id)]
  · simp
  · intro s hs
    have : s.id ≠ sid := fun e => h (e ▸ List.mem_map_of_mem hs)
    simp [this]

/-- Only links differ: same cores everywhere. -/
abbrev SameCore (c' c : List Slot) : Prop := c'.map Slot.core = c.map Slot.core

theorem splitAfter_part {ctx : Ctx} {ss : SlotSet} {l r : List Slot} {s : Slot} {date : Int}
    (h : Partition ss (l ++ s :: r)) (h1 : s.b ≤ date) (h2 : date ≤ s.e) (hlt : s.b < s.e) :
    ∃ ss' s' n r', ss.splitAfter ctx s.id date = some (ss', s.id, ss.lastId + 1) ∧
      Partition ss' (l ++ s' :: n :: r') ∧ SameCore r' r ∧
      s'.core = { s.core with e := (if s.b = date then date else date - 1) } ∧
      n.core = copyFrom ctx s (ss.lastId + 1) 0 0 (if s.b = date then s.b + 1 else date) s.e ∧
      ss'.lastId = ss.lastId + 1 ∧ ss'.begin_ = ss.begin_ ∧ ss'.end_ = ss.end_ ∧ ss'.cache = ss.cache := by
  have hs := h.range s (by simp)
  have hget := h.get (s := s) (by simp)
  have hlink := h.link
  have hnd := h.ids
  have hnew : ∀ x ∈ l ++ s :: r, x.id ≠ ss.lastId + 1 := fun x hx => by have := h.range x hx; omega
  simp only [List.map_append, List.map_cons, List.nodup_append, List.nodup_cons] at hnd
  have hsl : s.id ∉ l.map Slot.id := fun hm => hnd.2.2 s.id hm s.id (by simp) rfl
  have hsr : s.id ∉ r.map Slot.id := hnd.2.1.1
  -- the chain after the two in-place modifications
  let f1 : Slot → Slot := fun x => { x with prev := ss.lastId + 1 }
  let f2 : Slot → Slot := fun x =>
    { x with next := ss.lastId + 1, e := if s.b = date then date else date - 1 }
  let s' : Slot := f2 s
  let n : Slot := copyFrom ctx s (ss.lastId + 1) s.id s.next (if s.b = date then s.b + 1 else date) s.e
  let r' : List Slot := if s.next ≠ 0 then r.map (fun x => if x.id = s.next then f1 x else x) else r
  have hr' : SameCore r' r := by
    show r'.map _ = _
    simp only [r']
    split
    · rw [List.map_map]
      apply List.map_congr_left
      intro x _
      by_cases e : x.id = s.next <;> simp [e, f1, Slot.core]
    · rfl
  have hidr : r'.map Slot.id = r.map Slot.id := ids_congr hr'
  refine ⟨{ slots := ((if s.next ≠ 0 then ss.modify s.next f1 else ss).modify s.id f2).slots ++ [n],
            lastId := ss.lastId + 1, begin_ := ss.begin_, end_ := ss.end_, cache := ss.cache }, s', n, r',
    ?_, ?_, hr', rfl, rfl, rfl, rfl, rfl, rfl⟩
  · unfold SlotSet.splitAfter
    have hc : ¬ ¬ (date ≥ s.b ∧ date ≤ s.e) := not_not.2 ⟨h1, h2⟩
    rw [if_neg (by omega : ¬ s.id = 0), hget]
    simp only [if_neg hc, if_neg (by omega : ¬ s.b = s.e)]
    by_cases hn : s.next ≠ 0
    · simp only [if_pos hn]; rfl
    · simp only [if_neg hn]; rfl
  · refine ⟨?_, by simp, ?_, ?_, ?_, ?_⟩
    · -- permutation
      have hp : (if s.next ≠ 0 then ss.modify s.next f1 else ss).slots.Perm (l ++ s :: r') := by
        by_cases hn : s.next ≠ 0
        · simp only [if_pos hn, SlotSet.modify, r']
          refine (h.perm.map _).trans ?_
          have hnl : s.next ∉ l.map Slot.id ∧ s.next ≠ s.id := by
            rw [hlink.1] at hn ⊢
            cases r with
            | nil => simp [hd] at hn
            | cons t r2 =>
              simp only [hd]
              refine ⟨fun hm => hnd.2.2 t.id hm t.id (by simp) rfl, ?_⟩
              intro e; exact hsr (by simp [e])
          rw [List.map_append, List.map_cons, map_upd_of_not_mem hnl.1, if_neg (Ne.symm hnl.2)]
        · simp only [if_neg hn, r']; exact h.perm
      have hp2 := (hp.map (fun x => if x.id = s.id then f2 x else x))
      have e2 : (l ++ s :: r').map (fun x => if x.id = s.id then f2 x else x) = l ++ s' :: r' := by
        rw [List.map_append, List.map_cons, map_upd_of_not_mem hsl,
          map_upd_of_not_mem (by rw [hidr]; exact hsr), if_pos rfl]
      rw [e2] at hp2
      have hp3 := (hp2.append_right [n])
      refine hp3.trans ?_
      rw [List.append_assoc]
      apply List.Perm.append_left
      rw [List.cons_append]
      apply List.Perm.cons
      exact List.perm_append_comm
    · -- ids
      have e : (l ++ s' :: n :: r').map Slot.id = l.map Slot.id ++ s.id :: (ss.lastId + 1) :: r.map Slot.id := by
        rw [List.map_append, List.map_cons, List.map_cons, hidr]; rfl
      rw [e]
      have hnl : ∀ a ∈ l.map Slot.id, a ≠ ss.lastId + 1 := by
        intro a ha; obtain ⟨x, hx, rfl⟩ := List.mem_map.1 ha; exact hnew x (by simp [hx])
      have hnr : ∀ a ∈ r.map Slot.id, a ≠ ss.lastId + 1 := by
        intro a ha; obtain ⟨x, hx, rfl⟩ := List.mem_map.1 ha; exact hnew x (by simp [hx])
      rw [List.nodup_append, List.nodup_cons, List.nodup_cons]
      refine ⟨hnd.1, ⟨?_, ?_, hnd.2.1.2⟩, ?_⟩
      · simp only [List.mem_cons, not_or]
        exact ⟨by omega, hsr⟩
      · intro hm; exact hnr _ hm rfl
      · intro a ha b hb
        rcases List.mem_cons.1 hb with rfl | hb
        · exact hnd.2.2 a ha s.id (by simp)
        · rcases List.mem_cons.1 hb with rfl | hb
          · exact hnl a ha
          · exact hnd.2.2 a ha b (by simp [hb])
    · intro x hx
      have key : ∀ i ∈ (l ++ s' :: n :: r').map Slot.id, 0 < i ∧ i ≤ ss.lastId + 1 := by
        rw [List.map_append, List.map_cons, List.map_cons, hidr]
        intro i hi
        simp only [List.mem_append, List.mem_cons] at hi
        have hr := h.range
        rcases hi with hi | rfl | rfl | hi
        · obtain ⟨x, hx, rfl⟩ := List.mem_map.1 hi
          have := hr x (by simp [hx]); omega
        · show 0 < s.id ∧ s.id ≤ _; omega
        · show 0 < ss.lastId + 1 ∧ ss.lastId + 1 ≤ _; omega
        · obtain ⟨x, hx, rfl⟩ := List.mem_map.1 hi
          have := hr x (by simp [hx]); omega
      exact key _ (List.mem_map_of_mem hx)
    · -- links
      have hl := (linked_append l (s :: r) 0 0).1 h.linked
      rw [linked_append]
      refine ⟨hl.1, hl.2.1, rfl, rfl, ?_, ?_⟩
      · show s.next = hd 0 r'
        rw [hlink.1, hd_congr hidr]
      · show Linked (ss.lastId + 1) r' 0
        have hlr := hl.2.2.2
        cases r with
        | nil => simp [r', Linked]
        | cons t r2 =>
          have hsn : s.next = t.id := hlink.1
          have htid := h.range t (by simp)
          have hn : s.next ≠ 0 := by omega
          have htr2 : t.id ∉ r2.map Slot.id := by
            have := hnd.2.1.2
            rw [List.map_cons, List.nodup_cons] at this
            exact this.1
          simp only [r', if_pos hn, List.map_cons, if_pos hsn.symm]
          rw [map_upd_of_not_mem (by rw [hsn]; exact htr2)]
          exact ⟨rfl, hlr.2.1, hlr.2.2⟩
    · -- tiling
      have ht := h.tiled
      rw [tiled_append] at ht ⊢
      obtain ⟨m, g1, g2, g3, g4⟩ := ht
      refine ⟨m, g1, ?_⟩
      show s.b = m ∧ s.b ≤ (if s.b = date then date else date - 1) ∧
        (if s.b = date then s.b + 1 else date) = (if s.b = date then date else date - 1) + 1 ∧
        (if s.b = date then s.b + 1 else date) ≤ s.e ∧ Tiled (s.e + 1) r' ss.end_
      rw [tiled_congr hr']
      refine ⟨g2, ?_, ?_, ?_, g4⟩ <;> split <;> omega

theorem lst_congr : ∀ {c c' : List Slot} {n : Nat}, c'.map Slot.id = c.map Slot.id → lst n c' = lst n c
  | [], [], _, _ => rfl
  | [], _ :: _, _, h => by simp at h
  | _ :: _, [], _, h => by simp at h
  | x :: c, y :: c', n, h => by
    simp only [List.map_cons, List.cons.injEq] at h
    simp only [lst, h.1]
    exact lst_congr h.2

theorem lst_mem : ∀ (c : List Slot) (p : Nat), lst p c = p ∨ lst p c ∈ c.map Slot.id
  | [], p => Or.inl rfl
  | x :: c, p => by
    rcases lst_mem c x.id with h | h
    · right; simp [lst, h]
    · right; simp only [lst, List.map_cons, List.mem_cons]; exact Or.inr h

/-- Changing the `next` of the last slot of a chain. -/
theorem linked_set_next (n' : Nat) : ∀ (l : List Slot) (p n : Nat), Linked p l n → (l.map Slot.id).Nodup →
    p ∉ l.map Slot.id →
    Linked p (l.map (fun x => if x.id = lst p l then { x with next := n' } else x)) n'
  | [], p, n, h, hn, hp => trivial
  | [x], p, n, h, hn, hp => by
    simp only [List.map_cons, List.map_nil, lst, if_true]
    exact ⟨h.1, rfl, trivial⟩
  | x :: y :: l, p, n, h, hn, hp => by
    rw [List.map_cons, List.nodup_cons] at hn
    have ih := linked_set_next n' (y :: l) x.id n h.2.2 hn.2 hn.1
    have hx : x.id ≠ lst x.id (y :: l) := by
      intro e
      simp only [lst] at e
      rcases lst_mem l y.id with h' | h'
      · exact hn.1 (by rw [e, h']; simp)
      · exact hn.1 (by rw [e]; simp [h'])
    have e0 : lst p (x :: y :: l) = lst x.id (y :: l) := rfl
    rw [List.map_cons, e0, if_neg hx]
    refine ⟨h.1, ?_, ih⟩
    have e := h.2.1
    rw [e]
    simp only [List.map_cons, hd]
    split <;> rfl

theorem splitBefore_part {ctx : Ctx} {ss : SlotSet} {l r : List Slot} {s : Slot} {date : Int}
    (h : Partition ss (l ++ s :: r)) (h1 : s.b ≤ date) (h2 : date ≤ s.e) (hlt : s.b < s.e) :
    ∃ ss' s' n l', ss.splitBefore ctx s.id date = some (ss', ss.lastId + 1, s.id) ∧
      Partition ss' (l' ++ n :: s' :: r) ∧ SameCore l' l ∧
      s'.core = { s.core with b := (if s.b = date then s.b + 1 else date) } ∧
      n.core = copyFrom ctx s (ss.lastId + 1) 0 0 s.b (if s.b = date then s.b else date - 1) ∧
      ss'.lastId = ss.lastId + 1 ∧ ss'.begin_ = ss.begin_ ∧ ss'.end_ = ss.end_ ∧ ss'.cache = ss.cache := by
  have hs := h.range s (by simp)
  have hget := h.get (s := s) (by simp)
  have hlink := h.link
  have hnd := h.ids
  have hnew : ∀ x ∈ l ++ s :: r, x.id ≠ ss.lastId + 1 := fun x hx => by have := h.range x hx; omega
  simp only [List.map_append, List.map_cons, List.nodup_append, List.nodup_cons] at hnd
  have hsl : s.id ∉ l.map Slot.id := fun hm => hnd.2.2 s.id hm s.id (by simp) rfl
  have hsr : s.id ∉ r.map Slot.id := hnd.2.1.1
  let f1 : Slot → Slot := fun x => { x with next := ss.lastId + 1 }
  let f2 : Slot → Slot := fun x =>
    { x with prev := ss.lastId + 1, b := if s.b = date then s.b + 1 else date }
  let s' : Slot := f2 s
  let n : Slot := copyFrom ctx s (ss.lastId + 1) s.prev s.id s.b (if s.b = date then s.b else date - 1)
  let l' : List Slot := if s.prev ≠ 0 then l.map (fun x => if x.id = s.prev then f1 x else x) else l
  have hl' : SameCore l' l := by
    show l'.map _ = _
    simp only [l']
    split
    · rw [List.map_map]
      apply List.map_congr_left
      intro x _
      by_cases e : x.id = s.prev <;> simp [e, f1, Slot.core]
    · rfl
  have hidl : l'.map Slot.id = l.map Slot.id := ids_congr hl'
  have hzl : 0 ∉ l.map Slot.id := by
    intro hm; obtain ⟨x, hx, e⟩ := List.mem_map.1 hm
    have := h.range x (by simp [hx]); omega
  refine ⟨{ slots := ((if s.prev ≠ 0 then ss.modify s.prev f1 else ss).modify s.id f2).slots ++ [n],
            lastId := ss.lastId + 1, begin_ := ss.begin_, end_ := ss.end_, cache := ss.cache }, s', n, l',
    ?_, ?_, hl', rfl, rfl, rfl, rfl, rfl, rfl⟩
  · unfold SlotSet.splitBefore
    have hc : ¬ ¬ (date ≥ s.b ∧ date ≤ s.e) := not_not.2 ⟨h1, h2⟩
    rw [if_neg (by omega : ¬ s.id = 0), hget]
    simp only [if_neg hc, if_neg (by omega : ¬ s.b = s.e)]
    by_cases hn : s.prev ≠ 0
    · simp only [if_pos hn]; rfl
    · simp only [if_neg hn]; rfl
  · refine ⟨?_, by simp, ?_, ?_, ?_, ?_⟩
    · have hp : (if s.prev ≠ 0 then ss.modify s.prev f1 else ss).slots.Perm (l' ++ s :: r) := by
        by_cases hn : s.prev ≠ 0
        · simp only [if_pos hn, SlotSet.modify, l']
          refine (h.perm.map _).trans ?_
          have hml : s.prev ∈ l.map Slot.id := by
            rw [hlink.2] at hn ⊢
            rcases lst_mem l 0 with h' | h'
            · exact absurd h' hn
            · exact h'
          have hnr : s.prev ∉ r.map Slot.id ∧ s.prev ≠ s.id := by
            refine ⟨fun hm => hnd.2.2 s.prev hml s.prev (by simp [hm]) rfl, fun e => hsl (e ▸ hml)⟩
          rw [List.map_append, List.map_cons, map_upd_of_not_mem hnr.1, if_neg (Ne.symm hnr.2)]
        · simp only [if_neg hn, l']; exact h.perm
      have hp2 := (hp.map (fun x => if x.id = s.id then f2 x else x))
      have e2 : (l' ++ s :: r).map (fun x => if x.id = s.id then f2 x else x) = l' ++ s' :: r := by
        rw [List.map_append, List.map_cons, map_upd_of_not_mem hsr,
          map_upd_of_not_mem (by rw [hidl]; exact hsl), if_pos rfl]
      rw [e2] at hp2
      have hp3 := (hp2.append_right [n])
      refine hp3.trans ?_
      rw [List.append_assoc]
      apply List.Perm.append_left
      exact List.perm_append_comm
    · have e : (l' ++ n :: s' :: r).map Slot.id = l.map Slot.id ++ (ss.lastId + 1) :: s.id :: r.map Slot.id := by
        rw [List.map_append, List.map_cons, List.map_cons, hidl]; rfl
      rw [e]
      have hnl : ∀ a ∈ l.map Slot.id, a ≠ ss.lastId + 1 := by
        intro a ha; obtain ⟨x, hx, rfl⟩ := List.mem_map.1 ha; exact hnew x (by simp [hx])
      have hnr : ∀ a ∈ r.map Slot.id, a ≠ ss.lastId + 1 := by
        intro a ha; obtain ⟨x, hx, rfl⟩ := List.mem_map.1 ha; exact hnew x (by simp [hx])
      rw [List.nodup_append, List.nodup_cons, List.nodup_cons]
      refine ⟨hnd.1, ⟨?_, hsr, hnd.2.1.2⟩, ?_⟩
      · simp only [List.mem_cons, not_or]
        exact ⟨by omega, fun hm => hnr _ hm rfl⟩
      · intro a ha b hb
        rcases List.mem_cons.1 hb with rfl | hb
        · exact hnl a ha
        · rcases List.mem_cons.1 hb with rfl | hb
          · exact hnd.2.2 a ha s.id (by simp)
          · exact hnd.2.2 a ha b (by simp [hb])
    · intro x hx
      have key : ∀ i ∈ (l' ++ n :: s' :: r).map Slot.id, 0 < i ∧ i ≤ ss.lastId + 1 := by
        rw [List.map_append, List.map_cons, List.map_cons, hidl]
        intro i hi
        simp only [List.mem_append, List.mem_cons] at hi
        have hr := h.range
        rcases hi with hi | rfl | rfl | hi
        · obtain ⟨x, hx, rfl⟩ := List.mem_map.1 hi
          have := hr x (by simp [hx]); omega
        · show 0 < ss.lastId + 1 ∧ ss.lastId + 1 ≤ _; omega
        · show 0 < s.id ∧ s.id ≤ _; omega
        · obtain ⟨x, hx, rfl⟩ := List.mem_map.1 hi
          have := hr x (by simp [hx]); omega
      exact key _ (List.mem_map_of_mem hx)
    · have hl := (linked_append l (s :: r) 0 0).1 h.linked
      rw [linked_append]
      refine ⟨?_, ?_, rfl, rfl, hl.2.2.1, hl.2.2.2⟩
      · show Linked 0 l' (ss.lastId + 1)
        by_cases hn : s.prev ≠ 0
        · simp only [l', if_pos hn]
          rw [hlink.2]
          exact linked_set_next _ l 0 _ hl.1 hnd.1 hzl
        · simp only [l', if_neg hn]
          have : l = [] := by
            cases l with
            | nil => rfl
            | cons x l2 =>
              exfalso; apply hn
              rw [hlink.2]
              have := lst_mem l2 x.id
              intro e
              simp only [lst] at e
              rw [e] at this
              rcases this with h' | h'
              · have := h.range x (by simp); omega
              · exact hzl (by simp [h'])
          rw [this]; trivial
      · show s.prev = lst 0 l'
        rw [lst_congr hidl]; exact hlink.2
    · have ht := h.tiled
      rw [tiled_append] at ht ⊢
      obtain ⟨m, g1, g2, g3, g4⟩ := ht
      refine ⟨m, (tiled_congr hl' _ _).2 g1, ?_⟩
      show s.b = m ∧ s.b ≤ (if s.b = date then s.b else date - 1) ∧
        (if s.b = date then s.b + 1 else date) = (if s.b = date then s.b else date - 1) + 1 ∧
        (if s.b = date then s.b + 1 else date) ≤ s.e ∧ Tiled (s.e + 1) r ss.end_
      refine ⟨g2, ?_, ?_, ?_, g4⟩ <;> split <;> omega

end Oar.Kao
