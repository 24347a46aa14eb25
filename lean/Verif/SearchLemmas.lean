import Verif.Scheduling
import Verif.SlotJobs

/-!
# Lemmas about the search for a first fit
-/

namespace Oar.Kao
open Spec Oar.Hierarchy

/-- The pairs yielded by `traverse_with_width` on a chain suffix. -/
def cands (w : Int) : List Slot → List (Slot × Slot)
  | [] => []
  | s :: r =>
    match (s :: r).find? (fun e => decide (e.e - s.b + 1 ≥ w)) with
    | some e => (s, e) :: cands w r
    | none => cands w r

section
variable {ss : SlotSet} {c : List Slot}

theorem filterMap_cands (h : Partition ss c) (w : Int) : ∀ (r l : List Slot), c = l ++ r →
    r.filterMap (fun s => (ss.endFor w s).map (fun e => (s, e))) = cands w r
  | [], _, _ => rfl
  | s :: r, l, e => by
    have ih := filterMap_cands h w r (l ++ [s]) (by rw [e]; simp)
    rw [List.filterMap_cons, ih]
    have : ss.endFor w s = (s :: r).find? (fun e => decide (e.e - s.b + 1 ≥ w)) := by
      unfold SlotSet.endFor
      rw [traverse_from h e]
    rw [this, cands]
    cases (s :: r).find? (fun e => decide (e.e - s.b + 1 ≥ w)) <;> rfl

/-- `traverse_with_width` from a slot of the chain. -/
theorem traverseWidth_from (h : Partition ss c) {w : Int} (hw : 0 < w) {l r : List Slot} {s : Slot}
    (e : c = l ++ s :: r) : ss.traverseWidth w s.id = some (cands w (s :: r)) := by
  rw [SlotSet.traverseWidth, if_pos hw, traverse_from h e, filterMap_cands h w _ l e]

/-- `traverse_with_width` from the first slot. -/
theorem traverseWidth_all (h : Partition ss c) {w : Int} (hw : 0 < w) :
    ss.traverseWidth w 0 = some (cands w c) := by
  rw [SlotSet.traverseWidth, if_pos hw, traverse_all h, filterMap_cands h w c [] rfl]

/-- The loop of `intersec_itvs_slots` along a segment. -/
theorem intersecLoop_seg (h : Partition ss c) : ∀ (t l i r : List Slot) (a z : Slot) (fuel : Nat) (acc : ProcSet),
    c = l ++ (a :: t) ++ r → a :: t = i ++ [z] → t.length < fuel →
    ∃ A, ss.intersecLoop z.id fuel a acc = some A ∧ ∀ x, x ∈ A ↔ x ∈ acc ∧ ∀ s ∈ t, x ∈ s.itvs
  | t, l, i, r, a, z, 0, acc, e, ez, hf => by omega
  | [], l, i, r, a, z, fuel + 1, acc, e, ez, hf => by
    have : a = z := by
      cases i with
      | nil => simpa using ez
      | cons x i => simp at ez
    subst this
    exact ⟨acc, by simp [SlotSet.intersecLoop], by simp⟩
  | b :: t, l, i, r, a, z, fuel + 1, acc, e, ez, hf => by
    obtain ⟨i', rfl, ez'⟩ : ∃ i', i = a :: i' ∧ b :: t = i' ++ [z] := by
      cases i with
      | nil => simp at ez
      | cons x i =>
        simp only [List.cons_append, List.cons.injEq] at ez
        exact ⟨i, by rw [ez.1], ez.2⟩
    have hne : a.id ≠ z.id := by
      intro he
      have hz : z ∈ c := by rw [e, ez]; simp
      have ha : a ∈ c := by rw [e]; simp
      have := id_inj h ha hz he
      subst this
      have hnd := nodup_chain h
      rw [e, ez] at hnd
      simp only [List.nodup_append] at hnd
      simp at hnd
    have e' : c = (l ++ [a]) ++ (b :: t) ++ r := by rw [e]; simp
    have hg : ss.get? a.next = some b :=
      (Spec.Partition.next_cons (l := l) (r := t ++ r) (s := a) (t := b) (by rw [e] at h; simpa using h)).2.2
    obtain ⟨A, hA, hx⟩ := intersecLoop_seg h t (l ++ [a]) i' r b z fuel (acc ∩ b.itvs) e' ez' (by simp at hf; omega)
    refine ⟨A, ?_, ?_⟩
    · simp only [SlotSet.intersecLoop, if_pos hne, hg, hA]
    · intro x
      rw [hx x]
      simp only [Finset.mem_inter, List.mem_cons, forall_eq_or_imp, and_assoc]

/-- `intersec_itvs_slots` along a segment is the intersection of the free sets. -/
theorem intersec_seg (h : Partition ss c) {t l i r : List Slot} {a z : Slot}
    (e : c = l ++ (a :: t) ++ r) (ez : a :: t = i ++ [z]) :
    ∃ A, ss.intersec a.id z.id = some A ∧ ∀ x, x ∈ A ↔ ∀ s ∈ a :: t, x ∈ s.itvs := by
  have ha : a ∈ c := by rw [e]; simp
  have hlen : t.length < ss.slots.length := by rw [h.length_eq, e]; simp; omega
  obtain ⟨A, h1, h2⟩ := intersecLoop_seg h t l i r a z _ a.itvs e ez hlen
  refine ⟨A, by simp only [SlotSet.intersec, h.get ha, h1], ?_⟩
  intro x
  rw [h2]
  simp

/-- Split at the first element satisfying `p`. -/
theorem find_split {α : Type} {p : α → Bool} : ∀ {c : List α} {z : α}, c.find? p = some z →
    ∃ P Q, c = P ++ z :: Q ∧ (∀ x ∈ P, p x = false) ∧ p z = true
  | [], _, h => by simp at h
  | y :: c, z, h => by
    by_cases hp : p y = true
    · rw [List.find?_cons_of_pos hp] at h
      obtain rfl := Option.some.inj h
      exact ⟨[], c, rfl, by simp, hp⟩
    · rw [List.find?_cons_of_neg (by simpa using hp)] at h
      obtain ⟨P, Q, rfl, h1, h2⟩ := find_split h
      refine ⟨y :: P, Q, rfl, ?_, h2⟩
      intro x hx
      rcases List.mem_cons.1 hx with rfl | hx
      · simpa using hp
      · exact h1 x hx

/-- Along a tiled segment, from slot `a` to the first slot `z` ending late enough for the width, the segment
covers the window and all its slots meet it. -/
theorem segment_window {l P Q : List Slot} {a z : Slot} {r : List Slot} {w : Int} (h : Partition ss c) (hw : 0 < w)
    (e : c = l ++ a :: r) (hs : a :: r = P ++ z :: Q) (hP : ∀ x ∈ P, x.e - a.b + 1 < w)
    (hz : w ≤ z.e - a.b + 1) :
    (∀ s ∈ P ++ [z], a.b ≤ s.e ∧ s.b ≤ a.b + w - 1 ∧ a.b ≤ s.b) ∧
    (∀ u, a.b ≤ u → u < a.b + w → ∃ s ∈ P ++ [z], s.b ≤ u ∧ u ≤ s.e) := by
  have hT := h.tiled
  rw [e, hs] at hT
  have e1 : l ++ (P ++ z :: Q) = l ++ (P ++ [z]) ++ Q := by simp
  rw [e1] at hT
  obtain ⟨m, m', _, h2, _⟩ := tiled_seg hT
  have hm : m = a.b := by
    cases P with
    | nil =>
      simp only [List.nil_append, List.cons.injEq] at hs
      obtain ⟨rfl, rfl⟩ := hs
      exact h2.1.symm
    | cons x P =>
      simp only [List.cons_append, List.cons.injEq] at hs
      obtain ⟨rfl, rfl⟩ := hs
      exact h2.1.symm
  subst hm
  have hb := tiled_bounds _ _ _ h2
  have hzm := tiled_last _ _ _ _ h2
  refine ⟨?_, ?_⟩
  · intro s hs'
    have := hb.2 s hs'
    refine ⟨by omega, ?_, by omega⟩
    rcases List.mem_append.1 hs' with hs' | hs'
    · have := hP s hs'; omega
    · obtain rfl : s = z := by simpa using hs'
      rw [tiled_append] at h2
      obtain ⟨m, h3, h4⟩ := h2
      have hsb : s.b = m := h4.1
      cases hPP : P with
      | nil => subst hPP; simp only [Tiled] at h3; omega
      | cons x P' =>
        obtain ⟨P'', y, hy⟩ : ∃ P'' y, P = P'' ++ [y] :=
          ⟨P.dropLast, P.getLast (by rw [hPP]; simp), (List.dropLast_append_getLast _).symm⟩
        have := tiled_last P'' y _ _ (hy ▸ h3)
        have := hP y (by rw [hy]; simp)
        omega
  · intro u h3 h4
    obtain ⟨l', s, r', e', h5, h6⟩ := tiled_cover _ _ _ u h2 h3 (by omega)
    exact ⟨s, by rw [e']; simp, h5, h6⟩

/-- Membership of a free resource at a date of a given slot. -/
theorem free_of_slot (h : Partition ss c) {s : Slot} (hs : s ∈ c) {u : Int} (h1 : s.b ≤ u) (h2 : u ≤ s.e) (x : Nat) :
    Free ss u x ↔ x ∈ s.itvs := by
  constructor
  · rintro ⟨s', hs', h3, h4, hx⟩
    have := tiled_unique c _ _ u h.tiled s' s (h.mem_iff.1 hs') hs h3 h4 h1 h2
    exact this ▸ hx
  · intro hx
    exact ⟨s, h.mem_iff.2 hs, h1, h2, hx⟩

/-- The resources common to the slots of a candidate are those free during the whole window. -/
theorem segment_free {l P Q : List Slot} {a z : Slot} {r : List Slot} {w : Int} (h : Partition ss c) (hw : 0 < w)
    (e : c = l ++ a :: r) (hs : a :: r = P ++ z :: Q) (hP : ∀ x ∈ P, x.e - a.b + 1 < w)
    (hz : w ≤ z.e - a.b + 1) (x : Nat) :
    (∀ s ∈ P ++ [z], x ∈ s.itvs) ↔ FreeDuring ss a.b w x := by
  obtain ⟨g1, g2⟩ := segment_window h hw e hs hP hz
  have hmem : ∀ s ∈ P ++ [z], s ∈ c := by
    intro s hs'
    rw [e, hs]
    rcases List.mem_append.1 hs' with hs' | hs'
    · simp [hs']
    · simp at hs'; simp [hs']
  constructor
  · intro hx u h1 h2
    obtain ⟨s, hs', h3, h4⟩ := g2 u h1 h2
    exact (free_of_slot h (hmem s hs') h3 h4 x).2 (hx s hs')
  · intro hx s hs'
    obtain ⟨h1, h2, h3⟩ := g1 s hs'
    have hbe := ((tiled_bounds _ _ _ h.tiled).2 s (hmem s hs')).2.1
    have := hx s.b h3 (by omega)
    exact (free_of_slot h (hmem s hs') (le_refl _) hbe x).1 this

/-- What a candidate `(s, z)` computed from a chain suffix means. -/
theorem cand_spec (h : Partition ss c) {w : Int} (hw : 0 < w) {l r : List Slot} {s : Slot} (e : c = l ++ s :: r) :
    (∃ z, (s :: r).find? (fun e => decide (e.e - s.b + 1 ≥ w)) = some z ∧ s.b + w - 1 ≤ ss.end_ ∧ z ∈ c ∧
      (∃ A, ss.intersec s.id z.id = some A ∧ ∀ x, x ∈ A ↔ FreeDuring ss s.b w x)) ∨
    ((s :: r).find? (fun e => decide (e.e - s.b + 1 ≥ w)) = none ∧ ss.end_ < s.b + w - 1) := by
  cases hf : (s :: r).find? (fun e => decide (e.e - s.b + 1 ≥ w)) with
  | none =>
    right
    refine ⟨rfl, ?_⟩
    rw [List.find?_eq_none] at hf
    obtain ⟨i, z, hi⟩ : ∃ i z, s :: r = i ++ [z] :=
      ⟨(s :: r).dropLast, (s :: r).getLast (by simp), (List.dropLast_append_getLast _).symm⟩
    have hze := last_slot (l := l) (i := i) (z := z) h (by rw [e, hi])
    have := hf z (by rw [hi]; simp)
    simp only [ge_iff_le, decide_eq_true_eq] at this
    omega
  | some z =>
    left
    obtain ⟨P, Q, hs, hP, hz⟩ := find_split hf
    have hP' : ∀ x ∈ P, x.e - s.b + 1 < w := by
      intro x hx
      have := hP x hx
      simp only [ge_iff_le, decide_eq_false_iff_not] at this
      omega
    have hz' : w ≤ z.e - s.b + 1 := by simpa using hz
    have hzc : z ∈ c := by rw [e, hs]; simp
    refine ⟨z, rfl, ?_, hzc, ?_⟩
    · have := ((tiled_bounds _ _ _ h.tiled).2 z hzc).2.2
      omega
    · obtain ⟨t, ht⟩ : ∃ t, P ++ [z] = s :: t := by
        cases P with
        | nil =>
          simp only [List.nil_append, List.cons.injEq] at hs
          obtain ⟨rfl, rfl⟩ := hs
          exact ⟨[], rfl⟩
        | cons x P =>
          simp only [List.cons_append, List.cons.injEq] at hs
          obtain ⟨rfl, rfl⟩ := hs
          exact ⟨P ++ [z], rfl⟩
      have e2 : c = l ++ (s :: t) ++ Q := by rw [e, hs, ← ht]; simp
      obtain ⟨A, hA, hx⟩ := intersec_seg h e2 ht.symm
      refine ⟨A, hA, fun x => ?_⟩
      rw [hx, ← ht]
      exact segment_free h hw e hs hP' hz' x

end

end Oar.Kao
