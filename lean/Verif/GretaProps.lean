import Verif.Greta
import Verif.ToolsProps

/-!
# C37 (second part): the energy saving module
-/

namespace Oar.Greta

open Oar.Tools

/-! ## Dictionaries -/

section
variable {κ β : Type} [DecidableEq κ]

theorem mem_keys_put (k k' : κ) (v : β) (l : List (κ × β)) : k' ∈ (put k v l).map (·.1) ↔ k' = k ∨ k' ∈ l.map (·.1) := by
  induction l with
  | nil => simp [put]
  | cons e l ih =>
    unfold put
    by_cases h : e.1 = k
    · rw [if_pos h]
      simp only [List.map_cons, List.mem_cons, h]
      constructor
      · rintro (h | h)
        · exact Or.inl h
        · exact Or.inr (Or.inr h)
      · rintro (h | h | h)
        · exact Or.inl h
        · exact Or.inl h
        · exact Or.inr h
    · rw [if_neg h]
      rw [List.map_cons, List.mem_cons, ih, List.map_cons, List.mem_cons]
      constructor
      · rintro (h | h | h)
        · exact Or.inr (Or.inl h)
        · exact Or.inl h
        · exact Or.inr (Or.inr h)
      · rintro (h | h | h)
        · exact Or.inr (Or.inl h)
        · exact Or.inl h
        · exact Or.inr (Or.inr h)

theorem put_nodup (k : κ) (v : β) (l : List (κ × β)) (h : (l.map (·.1)).Nodup) : ((put k v l).map (·.1)).Nodup := by
  induction l with
  | nil => simp [put]
  | cons e l ih =>
    rw [List.map_cons, List.nodup_cons] at h
    unfold put
    by_cases hk : e.1 = k
    · rw [if_pos hk, List.map_cons, List.nodup_cons]
      exact ⟨hk ▸ h.1, h.2⟩
    · rw [if_neg hk, List.map_cons, List.nodup_cons, mem_keys_put]
      exact ⟨fun hc => hc.elim hk h.1, ih h.2⟩

theorem put_self (k : κ) (v : β) (l : List (κ × β)) : (k, v) ∈ put k v l := by
  induction l with
  | nil => simp [put]
  | cons e l ih =>
    unfold put
    by_cases hk : e.1 = k
    · rw [if_pos hk]; simp
    · rw [if_neg hk]; exact List.mem_cons_of_mem _ ih

theorem mem_put_of_ne (k : κ) (v : β) (l : List (κ × β)) (e : κ × β) (h : e.1 ≠ k) : e ∈ put k v l ↔ e ∈ l := by
  induction l with
  | nil =>
    simp only [put, List.mem_singleton, List.not_mem_nil, iff_false]
    rintro rfl
    exact h rfl
  | cons x l ih =>
    unfold put
    by_cases hk : x.1 = k
    · rw [if_pos hk, List.mem_cons, List.mem_cons]
      constructor
      · rintro (rfl | h')
        · exact absurd rfl h
        · exact Or.inr h'
      · rintro (rfl | h')
        · exact absurd hk h
        · exact Or.inr h'
    · rw [if_neg hk, List.mem_cons, List.mem_cons, ih]

theorem mem_put (k : κ) (v : β) (l : List (κ × β)) (e : κ × β) (h : e ∈ put k v l) : e = (k, v) ∨ e ∈ l := by
  induction l with
  | nil => exact Or.inl (List.mem_singleton.1 h)
  | cons x l ih =>
    unfold put at h
    by_cases hk : x.1 = k
    · rw [if_pos hk] at h
      rcases List.mem_cons.1 h with h | h
      · exact Or.inl h
      · exact Or.inr (List.mem_cons_of_mem _ h)
    · rw [if_neg hk] at h
      rcases List.mem_cons.1 h with h | h
      · exact Or.inr (h ▸ List.mem_cons_self)
      · exact (ih h).imp id (List.mem_cons_of_mem _)

theorem mem_put_nodup (k : κ) (v w : β) (l : List (κ × β)) (hn : (l.map (·.1)).Nodup) (h : (k, w) ∈ put k v l) : w = v := by
  induction l with
  | nil => exact (Prod.mk.inj (List.mem_singleton.1 h)).2
  | cons x l ih =>
    rw [List.map_cons, List.nodup_cons] at hn
    unfold put at h
    by_cases hk : x.1 = k
    · rw [if_pos hk] at h
      rcases List.mem_cons.1 h with h | h
      · exact (Prod.mk.inj h).2
      · exact absurd (List.mem_map.2 ⟨(k, w), h, hk.symm⟩) hn.1
    · rw [if_neg hk] at h
      rcases List.mem_cons.1 h with h | h
      · exact absurd (by rw [← h]) hk
      · exact ih hn.2 h

theorem put_new (k : κ) (v : β) (l : List (κ × β)) (h : k ∉ l.map (·.1)) : put k v l = l ++ [(k, v)] := by
  induction l with
  | nil => rfl
  | cons x l ih =>
    rw [List.map_cons, List.mem_cons, not_or] at h
    unfold put
    rw [if_neg (fun e => h.1 e.symm), ih h.2]
    rfl

theorem puts_new (m l : List (κ × β)) (hm : (m.map (·.1)).Nodup) (h : ∀ e ∈ m, e.1 ∉ l.map (·.1)) :
    m.foldl (fun l e => put e.1 e.2 l) l = l ++ m := by
  induction m generalizing l with
  | nil => simp
  | cons e m ih =>
    rw [List.map_cons, List.nodup_cons] at hm
    rw [List.foldl_cons, put_new _ _ _ (h e (by simp)), ih _ hm.2]
    · simp
    · intro x hx
      rw [List.map_append, List.mem_append, not_or]
      refine ⟨h x (List.mem_cons_of_mem _ hx), ?_⟩
      simp only [List.map_cons, List.map_nil, List.mem_singleton]
      intro hc
      exact hm.1 (hc ▸ List.mem_map.2 ⟨x, hx, rfl⟩)

theorem lookup_none (l : List (κ × β)) (k : κ) : l.lookup k = none ↔ k ∉ l.map (·.1) := by
  induction l with
  | nil => simp
  | cons e l ih =>
    rw [List.lookup_cons, List.map_cons, List.mem_cons]
    by_cases h : k = e.1
    · subst h; simp
    · have : (k == e.1) = false := by simpa using h
      rw [this]
      simp only [ih, h, false_or]

theorem lookup_some (l : List (κ × β)) (k : κ) (v : β) (h : l.lookup k = some v) : (k, v) ∈ l := by
  induction l with
  | nil => cases h
  | cons e l ih =>
    rw [List.lookup_cons] at h
    by_cases hk : k = e.1
    · subst hk
      simp only [BEq.rfl] at h
      cases h
      simp
    · have : (k == e.1) = false := by simpa using hk
      rw [this] at h
      exact List.mem_cons_of_mem _ (ih h)

omit [DecidableEq κ] in
theorem nodup_unique (l : List (κ × β)) (hn : (l.map (·.1)).Nodup) (k : κ) (v w : β) (hv : (k, v) ∈ l) (hw : (k, w) ∈ l) : v = w := by
  induction l with
  | nil => cases hv
  | cons e l ih =>
    rw [List.map_cons, List.nodup_cons] at hn
    rcases List.mem_cons.1 hv with hv | hv <;> rcases List.mem_cons.1 hw with hw | hw
    · rw [← hv] at hw
      exact (Prod.mk.inj hw).2.symm
    · exact absurd (List.mem_map.2 ⟨(k, w), hw, by rw [← hv]⟩) hn.1
    · exact absurd (List.mem_map.2 ⟨(k, v), hv, by rw [← hw]⟩) hn.1
    · exact ih hn.2 hv hw

theorem lookup_of_mem (l : List (κ × β)) (hn : (l.map (·.1)).Nodup) (k : κ) (v : β) (h : (k, v) ∈ l) : l.lookup k = some v := by
  cases hl : l.lookup k with
  | none => exact absurd (List.mem_map.2 ⟨(k, v), h, rfl⟩) ((lookup_none l k).1 hl)
  | some w => rw [nodup_unique l hn k v w h (lookup_some l k w hl)]

end

/-! ## Timeouts -/

theorem mem_insertKey (x y : Nat × Nat) (l : List (Nat × Nat)) : y ∈ insertKey x l ↔ y = x ∨ y ∈ l := by
  induction l with
  | nil => simp [insertKey]
  | cons z l ih =>
    unfold insertKey
    by_cases h : x.1 ≤ z.1
    · rw [if_pos h, List.mem_cons]
    · rw [if_neg h, List.mem_cons, ih, List.mem_cons]
      constructor
      · rintro (h | h | h)
        · exact Or.inr (Or.inl h)
        · exact Or.inl h
        · exact Or.inr (Or.inr h)
      · rintro (h | h | h)
        · exact Or.inr (Or.inl h)
        · exact Or.inl h
        · exact Or.inr (Or.inr h)

theorem mem_sortKeys (y : Nat × Nat) (l : List (Nat × Nat)) : y ∈ sortKeys l ↔ y ∈ l := by
  induction l with
  | nil => rfl
  | cons x l ih =>
    unfold sortKeys
    rw [mem_insertKey, ih, List.mem_cons]

theorem insertKey_sorted (x : Nat × Nat) (l : List (Nat × Nat)) (h : l.Pairwise (fun a b => a.1 ≤ b.1)) : (insertKey x l).Pairwise (fun a b => a.1 ≤ b.1) := by
  induction l with
  | nil => exact List.pairwise_singleton _ _
  | cons z l ih =>
    rw [List.pairwise_cons] at h
    unfold insertKey
    by_cases hx : x.1 ≤ z.1
    · rw [if_pos hx, List.pairwise_cons, List.pairwise_cons]
      refine ⟨fun y hy => ?_, h⟩
      rcases List.mem_cons.1 hy with rfl | hy
      · exact hx
      · exact Nat.le_trans hx (h.1 y hy)
    · rw [if_neg hx, List.pairwise_cons]
      refine ⟨fun y hy => ?_, ih h.2⟩
      rcases (mem_insertKey x y l).1 hy with rfl | hy
      · omega
      · exact h.1 y hy

theorem sortKeys_sorted (l : List (Nat × Nat)) : (sortKeys l).Pairwise (fun a b => a.1 ≤ b.1) := by
  induction l with
  | nil => exact List.Pairwise.nil
  | cons x l ih => exact insertKey_sorted x _ ih

theorem scan_spec (n : Nat) (l : List (Nat × Nat)) (t : Nat) (h : l.Pairwise (fun a b => a.1 ≤ b.1)) :
    (scan n l t = t ∧ ∀ x ∈ l, n < x.1) ∨ ∃ x ∈ l, scan n l t = x.2 ∧ x.1 ≤ n ∧ ∀ y ∈ l, y.1 ≤ n → y.1 ≤ x.1 := by
  induction l generalizing t with
  | nil => exact Or.inl ⟨rfl, by simp⟩
  | cons x l ih =>
    rw [List.pairwise_cons] at h
    unfold scan
    by_cases hx : n < x.1
    · rw [if_pos hx]
      refine Or.inl ⟨rfl, fun y hy => ?_⟩
      rcases List.mem_cons.1 hy with rfl | hy
      · exact hx
      · exact Nat.lt_of_lt_of_le hx (h.1 y hy)
    · rw [if_neg hx]
      rcases ih x.2 h.2 with ⟨h1, h2⟩ | ⟨z, hz, h1, h2, h3⟩
      · refine Or.inr ⟨x, by simp, h1, by omega, fun y hy hle => ?_⟩
        rcases List.mem_cons.1 hy with rfl | hy
        · exact Nat.le_refl _
        · have := h2 y hy
          omega
      · refine Or.inr ⟨z, List.mem_cons_of_mem _ hz, h1, h2, fun y hy hle => ?_⟩
        rcases List.mem_cons.1 hy with rfl | hy
        · exact h.1 z hz
        · exact h3 y hy hle

/-- C37: the timeout for `n` nodes is that of the greatest threshold not above `n`, or the one of the threshold 1; without the latter
an exception is raised. -/
theorem timeout_spec (ts : List (Nat × Nat)) (n : Nat) :
    (getTimeout ts n = none ↔ ∀ x ∈ ts, x.1 ≠ 1) ∧
    ∀ t, getTimeout ts n = some t → (∃ k, (k, t) ∈ ts ∧ k ≤ n ∧ ∀ y ∈ ts, y.1 ≤ n → y.1 ≤ k) ∨ ((1, t) ∈ ts ∧ ∀ y ∈ ts, n < y.1) := by
  constructor
  · unfold getTimeout
    rw [Option.map_eq_none_iff, lookup_none]
    constructor
    · intro h x hx e
      exact h (List.mem_map.2 ⟨x, hx, e⟩)
    · intro h hc
      obtain ⟨x, hx, e⟩ := List.mem_map.1 hc
      exact h x hx e
  · intro t h
    unfold getTimeout at h
    obtain ⟨t1, h1, e⟩ := Option.map_eq_some_iff.1 h
    have h1 := lookup_some _ _ _ h1
    rcases scan_spec n (sortKeys ts) t1 (sortKeys_sorted ts) with ⟨h2, h3⟩ | ⟨x, hx, h2, h3, h4⟩
    · refine Or.inr ⟨by rw [← e, h2]; exact h1, fun y hy => h3 y ((mem_sortKeys y ts).2 hy)⟩
    · refine Or.inl ⟨x.1, ?_, h3, fun y hy hle => h4 y ((mem_sortKeys y ts).2 hy) hle⟩
      rw [← e, h2]
      exact (mem_sortKeys x ts).1 hx

/-- C37: when the timeouts of the table grow with the thresholds, the timeout grows with the number of nodes. -/
theorem timeout_mono (ts : List (Nat × Nat)) (h : ∀ x ∈ ts, ∀ y ∈ ts, x.1 ≤ y.1 → x.2 ≤ y.2) (n m t u : Nat) (hle : n ≤ m)
    (hn : getTimeout ts n = some t) (hm : getTimeout ts m = some u) : t ≤ u := by
  have one : ∃ v, (1, v) ∈ ts := by
    have := (timeout_spec ts n).1
    rw [hn] at this
    apply Classical.byContradiction
    intro hc
    have h0 := this.2 (fun x hx e => hc ⟨x.2, by rw [← e]; exact hx⟩)
    cases h0
  obtain ⟨v, hv⟩ := one
  rcases (timeout_spec ts n).2 t hn with ⟨k, hk, hkn, hmax⟩ | ⟨ht, hno⟩ <;> rcases (timeout_spec ts m).2 u hm with ⟨k', hk', hkm, hmax'⟩ | ⟨hu, hno'⟩
  · exact h _ hk _ hk' (hmax' _ hk (Nat.le_trans hkn hle))
  · have := hno' _ hk
    dsimp only at this
    omega
  · have h1 := hno _ hv
    have h2 := hno _ hk'
    dsimp only at h1 h2
    refine h _ ht _ hk' ?_
    show 1 ≤ k'
    omega
  · exact h _ ht _ hu (Nat.le_refl _)

/-! ## The list to process -/

theorem keepWake_spec (running can : List String) (l : List String) : ∀ (ok : Int) (p : List (String × Cmd)), (keys p).Nodup →
    (keys (keepWake running can l ok p)).Nodup ∧
    (∀ e ∈ keepWake running can l ok p, e ∈ p ∨ (e.2 = .wakeup ∧ e.1 ∈ l ∧ e.1 ∈ can ∧ e.1 ∉ running ∧ ok < 0)) ∧
    (∀ n, n ∈ keys p → n ∈ keys (keepWake running can l ok p)) := by
  induction l with
  | nil => intro ok p h; exact ⟨h, fun e he => Or.inl he, fun n hn => hn⟩
  | cons n l ih =>
    intro ok p h
    unfold keepWake
    by_cases h0 : 0 ≤ ok
    · rw [if_pos h0]; exact ⟨h, fun e he => Or.inl he, fun n hn => hn⟩
    rw [if_neg h0]
    by_cases hc : can.contains n = true
    · rw [if_pos hc]
      by_cases hr : running.contains n = true
      · rw [if_pos hr]
        obtain ⟨a, b, c⟩ := ih (ok + 1) p h
        refine ⟨a, fun e he => ?_, c⟩
        rcases b e he with h | ⟨h1, h2, h3, h4, _⟩
        · exact Or.inl h
        · exact Or.inr ⟨h1, List.mem_cons_of_mem _ h2, h3, h4, by omega⟩
      · rw [if_neg hr]
        obtain ⟨a, b, c⟩ := ih (ok + 1) (put n .wakeup p) (put_nodup _ _ _ h)
        refine ⟨a, fun e he => ?_, fun k hk => c k ((mem_keys_put _ _ _ _).2 (Or.inr hk))⟩
        rcases b e he with h | ⟨h1, h2, h3, h4, _⟩
        · rcases mem_put _ _ _ _ h with h | h
          · subst h
            exact Or.inr ⟨rfl, by simp, by simpa using hc, by simpa using hr, by omega⟩
          · exact Or.inl h
        · exact Or.inr ⟨h1, List.mem_cons_of_mem _ h2, h3, h4, by omega⟩
    · rw [if_neg hc]
      obtain ⟨a, b, c⟩ := ih ok p h
      refine ⟨a, fun e he => ?_, c⟩
      rcases b e he with h | ⟨h1, h2, h3, h4, h5⟩
      · exact Or.inl h
      · exact Or.inr ⟨h1, List.mem_cons_of_mem _ h2, h3, h4, h5⟩

/-- Enough nodes of the class are in the list or running, or all those which can be woken up are. -/
theorem keepWake_enough (running can : List String) (l : List String) : ∀ (ok : Int) (p : List (String × Cmd)), (keys p).Nodup →
    (0 ≤ ok + ((l.filter (fun n => can.contains n)).filter (fun n => decide (n ∈ keys (keepWake running can l ok p) ∨ n ∈ running))).length) ∨
    ∀ n ∈ l, n ∈ can → n ∈ keys (keepWake running can l ok p) ∨ n ∈ running := by
  induction l with
  | nil => intro ok p _; exact Or.inr (by simp)
  | cons n l ih =>
    intro ok p hn
    have hmono := (keepWake_spec running can l)
    unfold keepWake
    by_cases h0 : 0 ≤ ok
    · exact Or.inl (by omega)
    rw [if_neg h0]
    by_cases hc : can.contains n = true
    · rw [if_pos hc, List.filter_cons_of_pos (p := fun n => can.contains n) hc]
      have hin : n ∈ keys (keepWake running can l (ok + 1) (if running.contains n then p else put n .wakeup p)) ∨ n ∈ running := by
        by_cases hr : running.contains n = true
        · exact Or.inr (by simpa using hr)
        · rw [if_neg hr]
          exact Or.inl ((hmono (ok + 1) _ (put_nodup _ _ _ hn)).2.2 n ((mem_keys_put _ _ _ _).2 (Or.inl rfl)))
      have hn' : (keys (if running.contains n then p else put n .wakeup p)).Nodup := by
        split
        · exact hn
        · exact put_nodup _ _ _ hn
      rcases ih (ok + 1) _ hn' with h | h
      · left
        rw [List.filter_cons_of_pos (by simpa using hin), List.length_cons]
        omega
      · right
        intro k hk hkc
        rcases List.mem_cons.1 hk with rfl | hk
        · exact hin
        · exact h k hk hkc
    · rw [if_neg hc, List.filter_cons_of_neg (p := fun n => can.contains n) hc]
      rcases ih ok p hn with h | h
      · exact Or.inl h
      · right
        intro k hk hkc
        rcases List.mem_cons.1 hk with rfl | hk
        · exact absurd (by simpa using hkc) hc
        · exact h k hk hkc

theorem filter_le {α : Type} (p q : α → Bool) (l : List α) (h : ∀ x, p x = true → q x = true) : (l.filter p).length ≤ (l.filter q).length := by
  induction l with
  | nil => exact Nat.le_refl _
  | cons x l ih =>
    by_cases hp : p x = true
    · rw [List.filter_cons_of_pos hp, List.filter_cons_of_pos (h x hp), List.length_cons, List.length_cons]
      omega
    · rw [List.filter_cons_of_neg hp]
      by_cases hq : q x = true
      · rw [List.filter_cons_of_pos hq, List.length_cons]
        omega
      · rw [List.filter_cons_of_neg hq]
        exact ih

theorem keepFold_spec (v : View) (running : List String) (cs : List (Nat × List (String × String × String))) : ∀ (p : List (String × Cmd)), (keys p).Nodup →
    (keys (cs.foldl (fun p c => keepWake running v.can (downOf c.2) ((idleOf v c.2).length - c.1) p) p)).Nodup ∧
    (∀ e ∈ cs.foldl (fun p c => keepWake running v.can (downOf c.2) ((idleOf v c.2).length - c.1) p) p, e ∈ p ∨ (e.2 = .wakeup ∧ e.1 ∈ v.can ∧ e.1 ∉ running ∧
      ∃ c ∈ cs, e.1 ∈ downOf c.2 ∧ (idleOf v c.2).length < c.1)) ∧
    (∀ n, n ∈ keys p → n ∈ keys (cs.foldl (fun p c => keepWake running v.can (downOf c.2) ((idleOf v c.2).length - c.1) p) p)) ∧
    ∀ c ∈ cs, (c.1 ≤ (idleOf v c.2).length + (((downOf c.2).filter (fun n => v.can.contains n)).filter (fun n => decide (n ∈ keys (cs.foldl (fun p c =>
      keepWake running v.can (downOf c.2) ((idleOf v c.2).length - c.1) p) p) ∨ n ∈ running))).length) ∨
      ∀ n ∈ downOf c.2, n ∈ v.can → n ∈ keys (cs.foldl (fun p c => keepWake running v.can (downOf c.2) ((idleOf v c.2).length - c.1) p) p) ∨ n ∈ running := by
  induction cs with
  | nil => intro p h; exact ⟨h, fun e he => Or.inl he, fun n hn => hn, by simp⟩
  | cons c cs ih =>
    intro p h
    rw [List.foldl_cons]
    obtain ⟨a, b, d⟩ := keepWake_spec running v.can (downOf c.2) ((idleOf v c.2).length - c.1) p h
    have e := keepWake_enough running v.can (downOf c.2) ((idleOf v c.2).length - c.1) p h
    obtain ⟨a', b', d', e'⟩ := ih _ a
    refine ⟨a', fun x hx => ?_, fun n hn => d' n (d n hn), ?_⟩
    · rcases b' x hx with hx | ⟨h1, h2, h3, c', hc', h4⟩
      · rcases b x hx with hx | ⟨h1, h2, h3, h4, h5⟩
        · exact Or.inl hx
        · exact Or.inr ⟨h1, h3, h4, c, by simp, h2, by omega⟩
      · exact Or.inr ⟨h1, h2, h3, c', List.mem_cons_of_mem _ hc', h4⟩
    · intro x hx
      rcases List.mem_cons.1 hx with rfl | hx
      · rcases e with e | e
        · left
          have hle : (((downOf x.2).filter (fun n => v.can.contains n)).filter (fun n => decide (n ∈ keys (keepWake running v.can (downOf x.2) ((idleOf v x.2).length - x.1) p) ∨ n ∈ running))).length ≤
              (((downOf x.2).filter (fun n => v.can.contains n)).filter (fun n => decide (n ∈ keys (cs.foldl (fun p c =>
                keepWake running v.can (downOf c.2) ((idleOf v c.2).length - c.1) p) (keepWake running v.can (downOf x.2) ((idleOf v x.2).length - x.1) p)) ∨ n ∈ running))).length := by
            apply filter_le
            intro n hn
            simp only [decide_eq_true_eq] at hn ⊢
            exact hn.imp (d' n) id
          omega
        · exact Or.inr (fun n hn hc => (e n hn hc).imp (d' n) id)
      · exact e' x hx

theorem remindAll_spec (running : List String) (rem : List (String × Cmd)) : ∀ (p : List (String × Cmd)), (keys p).Nodup →
    (keys (remindAll running rem p)).Nodup ∧
    (∀ e ∈ remindAll running rem p, e ∈ p ∨ (e ∈ rem ∧ e.1 ∉ running)) ∧
    (∀ n, n ∈ keys p → n ∈ keys (remindAll running rem p)) ∧
    ((keys rem).Nodup → ∀ e ∈ rem, e.1 ∉ running → e ∈ remindAll running rem p) := by
  induction rem with
  | nil => intro p h; exact ⟨h, fun e he => Or.inl he, fun n hn => hn, by simp⟩
  | cons x rem ih =>
    intro p h
    show (keys (remindAll running rem (if running.contains x.1 then p else put x.1 x.2 p))).Nodup ∧ _
    by_cases hr : running.contains x.1 = true
    · have hfold : remindAll running (x :: rem) p = remindAll running rem p := by
        show remindAll running rem (if running.contains x.1 then p else put x.1 x.2 p) = _
        rw [if_pos hr]
      rw [hfold, if_pos hr]
      obtain ⟨a, b, c, d⟩ := ih p h
      refine ⟨a, fun e he => ?_, c, fun hn e he hne => ?_⟩
      · rcases b e he with h | ⟨h1, h2⟩
        · exact Or.inl h
        · exact Or.inr ⟨List.mem_cons_of_mem _ h1, h2⟩
      · rcases List.mem_cons.1 he with rfl | he
        · exact absurd (by simpa using hr) hne
        · exact d (List.nodup_cons.1 hn).2 e he hne
    · have hfold : remindAll running (x :: rem) p = remindAll running rem (put x.1 x.2 p) := by
        show remindAll running rem (if running.contains x.1 then p else put x.1 x.2 p) = _
        rw [if_neg hr]
      rw [hfold, if_neg hr]
      obtain ⟨a, b, c, d⟩ := ih (put x.1 x.2 p) (put_nodup _ _ _ h)
      refine ⟨a, fun e he => ?_, fun n hn => c n ((mem_keys_put _ _ _ _).2 (Or.inr hn)), fun hn e he hne => ?_⟩
      · rcases b e he with h | ⟨h1, h2⟩
        · rcases mem_put _ _ _ _ h with h | h
          · subst h
            exact Or.inr ⟨by simp, by simpa using hr⟩
          · exact Or.inl h
        · exact Or.inr ⟨List.mem_cons_of_mem _ h1, h2⟩
      · have hnd : x.1 ∉ keys rem ∧ (keys rem).Nodup := List.nodup_cons.1 hn
        rcases List.mem_cons.1 he with he | he
        · -- the command of x stays, since no other entry has its node
          have key : ∀ (l : List (String × Cmd)) (q : List (String × Cmd)), e ∈ q → e.1 ∉ keys l → e ∈ remindAll running l q := by
            intro l
            induction l with
            | nil => intro q hq _; exact hq
            | cons y l ihl =>
              intro q hq hne'
              have hne' : e.1 ≠ y.1 ∧ e.1 ∉ keys l := by
                constructor
                · intro hc
                  exact hne' (List.mem_map.2 ⟨y, by simp, hc.symm⟩)
                · intro hc
                  obtain ⟨z, hz, hz'⟩ := List.mem_map.1 hc
                  exact hne' (List.mem_map.2 ⟨z, List.mem_cons_of_mem _ hz, hz'⟩)
              show e ∈ remindAll running l (if running.contains y.1 then q else put y.1 y.2 q)
              refine ihl _ ?_ hne'.2
              split
              · exact hq
              · exact (mem_put_of_ne _ _ _ _ hne'.1).2 hq
          refine key rem _ ?_ (he ▸ hnd.1)
          rw [he]
          exact put_self _ _ _
        · exact d hnd.2 e he hne

theorem receive_spec (running : List (String × Cmd × Int)) (cmd : Cmd) (ns : List String) : ∀ (p rem : List (String × Cmd)), (keys p).Nodup → (keys rem).Nodup →
    (keys (receive running cmd ns p rem).1).Nodup ∧ (keys (receive running cmd ns p rem).2).Nodup ∧
    (∀ e ∈ (receive running cmd ns p rem).1, (e ∈ p ∧ (e.1 ∉ ns ∨ e.1 ∈ keys running ∨ e.2 = cmd)) ∨ (e.2 = cmd ∧ e.1 ∈ ns ∧ e.1 ∉ keys running)) ∧
    (∀ n, n ∈ keys p → n ∈ keys (receive running cmd ns p rem).1) ∧
    (∀ n, n ∈ keys rem → n ∈ keys (receive running cmd ns p rem).2) ∧
    (∀ e ∈ (receive running cmd ns p rem).2, e ∈ rem ∨ (e.2 = cmd ∧ e.1 ∈ ns)) ∧
    (∀ e ∈ p, e.2 = cmd → e ∈ (receive running cmd ns p rem).1) ∧ (∀ e ∈ rem, e.2 = cmd → e ∈ (receive running cmd ns p rem).2) ∧
    ∀ n ∈ ns, (n ∉ keys running ∧ (n, cmd) ∈ (receive running cmd ns p rem).1) ∨ (∃ t, (n, cmd, t) ∈ running) ∨ (n, cmd) ∈ (receive running cmd ns p rem).2 := by
  induction ns with
  | nil =>
    intro p rem h h'
    exact ⟨h, h', fun e he => Or.inl ⟨he, Or.inl (by simp)⟩, fun n hn => hn, fun n hn => hn, fun e he => Or.inl he, fun e he _ => he, fun e he _ => he, by simp⟩
  | cons n ns ih =>
    intro p rem h h'
    unfold receive
    cases hl : running.lookup n with
    | none =>
      have hnr := (lookup_none running n).1 hl
      dsimp only
      obtain ⟨a, a2, b, c, c2, d, k1, k2, e⟩ := ih (put n cmd p) rem (put_nodup _ _ _ h) h'
      refine ⟨a, a2, fun x hx => ?_, fun k hk => c k ((mem_keys_put _ _ _ _).2 (Or.inr hk)), c2, fun x hx => ?_, fun x hx hc => ?_, k2, fun k hk => ?_⟩
      · rcases b x hx with ⟨h1, h2⟩ | ⟨h1, h2, h3⟩
        · rcases mem_put _ _ _ _ h1 with h1 | h1
          · subst h1
            exact Or.inr ⟨rfl, by simp, hnr⟩
          · by_cases hxn : x.1 = n
            · obtain ⟨xn, xc⟩ := x
              dsimp only at hxn
              subst hxn
              have : xc = cmd := by
                have hm : (xn, xc) ∈ put xn cmd p := by
                  rcases b (xn, xc) hx with ⟨hq, _⟩ | ⟨hq, _, _⟩
                  · exact hq
                  · dsimp only at hq
                    subst hq
                    exact put_self _ _ _
                exact mem_put_nodup _ _ _ _ h hm
              exact Or.inr ⟨this, by simp, hnr⟩
            · refine Or.inl ⟨h1, ?_⟩
              rcases h2 with h2 | h2 | h2
              · exact Or.inl (by rw [List.mem_cons, not_or]; exact ⟨hxn, h2⟩)
              · exact Or.inr (Or.inl h2)
              · exact Or.inr (Or.inr h2)
        · exact Or.inr ⟨h1, List.mem_cons_of_mem _ h2, h3⟩
      · rcases d x hx with h | ⟨h1, h2⟩
        · exact Or.inl h
        · exact Or.inr ⟨h1, List.mem_cons_of_mem _ h2⟩
      · refine k1 x ?_ hc
        by_cases hxn : x.1 = n
        · obtain ⟨xn, xc⟩ := x
          dsimp only at hxn hc
          subst hxn hc
          exact put_self _ _ _
        · exact (mem_put_of_ne _ _ _ _ hxn).2 hx
      · rcases List.mem_cons.1 hk with rfl | hk
        · exact Or.inl ⟨hnr, k1 _ (put_self _ _ _) rfl⟩
        · exact e k hk
    | some x =>
      have hmem := lookup_some running n x hl
      have hnr : n ∈ keys running := List.mem_map.2 ⟨(n, x), hmem, rfl⟩
      dsimp only
      by_cases hc : cmd ≠ x.1
      · rw [if_pos hc]
        obtain ⟨a, a2, b, c, c2, d, k1, k2, e⟩ := ih p (put n cmd rem) h (put_nodup _ _ _ h')
        refine ⟨a, a2, fun y hy => ?_, c, fun k hk => c2 k ((mem_keys_put _ _ _ _).2 (Or.inr hk)), fun y hy => ?_, k1, fun y hy hyc => ?_, fun k hk => ?_⟩
        · rcases b y hy with ⟨h1, h2⟩ | ⟨h1, h2, h3⟩
          · refine Or.inl ⟨h1, ?_⟩
            rcases h2 with h2 | h2 | h2
            · by_cases hyn : y.1 = n
              · exact Or.inr (Or.inl (hyn ▸ hnr))
              · exact Or.inl (by rw [List.mem_cons, not_or]; exact ⟨hyn, h2⟩)
            · exact Or.inr (Or.inl h2)
            · exact Or.inr (Or.inr h2)
          · exact Or.inr ⟨h1, List.mem_cons_of_mem _ h2, h3⟩
        · rcases d y hy with h | ⟨h1, h2⟩
          · rcases mem_put _ _ _ _ h with h | h
            · subst h
              exact Or.inr ⟨rfl, by simp⟩
            · exact Or.inl h
          · exact Or.inr ⟨h1, List.mem_cons_of_mem _ h2⟩
        · refine k2 y ?_ hyc
          by_cases hyn : y.1 = n
          · obtain ⟨yn, yc⟩ := y
            dsimp only at hyn hyc
            subst hyn hyc
            exact put_self _ _ _
          · exact (mem_put_of_ne _ _ _ _ hyn).2 hy
        · rcases List.mem_cons.1 hk with rfl | hk
          · exact Or.inr (Or.inr (k2 _ (put_self _ _ _) rfl))
          · exact e k hk
      · rw [if_neg hc]
        have hc : cmd = x.1 := Classical.byContradiction hc
        obtain ⟨a, a2, b, c, c2, d, k1, k2, e⟩ := ih p rem h h'
        refine ⟨a, a2, fun y hy => ?_, c, c2, fun y hy => ?_, k1, k2, fun k hk => ?_⟩
        · rcases b y hy with ⟨h1, h2⟩ | ⟨h1, h2, h3⟩
          · refine Or.inl ⟨h1, ?_⟩
            rcases h2 with h2 | h2 | h2
            · by_cases hyn : y.1 = n
              · exact Or.inr (Or.inl (hyn ▸ hnr))
              · exact Or.inl (by rw [List.mem_cons, not_or]; exact ⟨hyn, h2⟩)
            · exact Or.inr (Or.inl h2)
            · exact Or.inr (Or.inr h2)
          · exact Or.inr ⟨h1, List.mem_cons_of_mem _ h2, h3⟩
        · rcases d y hy with h | ⟨h1, h2⟩
          · exact Or.inl h
          · exact Or.inr ⟨h1, List.mem_cons_of_mem _ h2⟩
        · rcases List.mem_cons.1 hk with rfl | hk
          · refine Or.inr (Or.inl ⟨x.2, ?_⟩)
            rw [hc]
            exact hmem
          · exact e k hk

/-! ## Launching -/

/-- The nodes halted by a list of commands. -/
def halted (l : List (Cmd × String)) : List String := (l.filter (fun x => x.1 = .halt)).map (·.2)

theorem launch_spec (limit : Int) (p : List (String × Cmd)) : ∀ (cls : List Cl),
    (launch limit p cls).1.map (fun x => (x.2, x.1)) = (launch limit p cls).2.map (fun x => (x.1, x.2.1)) ∧
    ((launch limit p cls).2.map (fun x => (x.1, x.2.1))).Sublist p ∧
    (∀ n, (n, Cmd.wakeup) ∈ p → (Cmd.wakeup, n) ∈ (launch limit p cls).1) ∧
    (∀ e ∈ (launch limit p cls).2, e.2.2 = if e.2.1 = Cmd.wakeup then limit else -1) ∧
    (∀ c ∈ cls, (((halted (launch limit p cls).1).filter (fun n => c.nodes.contains n)).length : Int) ≤ max 0 (c.idle - c.min)) ∧
    (∀ n, (n, Cmd.halt) ∈ p → (Cmd.halt, n) ∈ (launch limit p cls).1 ∨ ∃ c ∈ cls, n ∈ c.nodes ∧
      c.idle - ((halted (launch limit p cls).1).filter (fun n => c.nodes.contains n)).length ≤ c.min) := by
  induction p with
  | nil =>
    intro cls
    refine ⟨rfl, List.Sublist.slnil, by simp, by simp [launch], fun c _ => ?_, by simp⟩
    simp only [launch, halted, List.filter_nil, List.map_nil, List.length_nil]
    omega
  | cons e p ih =>
    intro cls
    obtain ⟨n, c⟩ := e
    cases c with
    | wakeup =>
      obtain ⟨a, b, c, d, f, g⟩ := ih cls
      have hh : halted (launch limit ((n, Cmd.wakeup) :: p) cls).1 = halted (launch limit p cls).1 := by
        simp [launch, halted]
      rw [hh]
      refine ⟨?_, ?_, ?_, ?_, f, ?_⟩
      · simp only [launch, List.map_cons, a]
      · simp only [launch, List.map_cons]
        exact b.cons_cons _
      · intro k hk
        simp only [launch]
        rcases List.mem_cons.1 hk with hk | hk
        · cases hk; simp
        · exact List.mem_cons_of_mem _ (c k hk)
      · intro x hx
        simp only [launch] at hx
        rcases List.mem_cons.1 hx with rfl | hx
        · rfl
        · exact d x hx
      · intro k hk
        rcases List.mem_cons.1 hk with hk | hk
        · cases hk
        · rcases g k hk with h | h
          · exact Or.inl (List.mem_cons_of_mem _ h)
          · exact Or.inr h
    | halt =>
      by_cases hr : cls.any (fun c => c.nodes.contains n && decide (c.idle ≤ c.min)) = true
      · have hl : launch limit ((n, Cmd.halt) :: p) cls = launch limit p cls := by
          show (if cls.any (fun c => c.nodes.contains n && decide (c.idle ≤ c.min)) then _ else _) = _
          rw [if_pos hr]
        rw [hl]
        obtain ⟨a, b, c, d, f, g⟩ := ih cls
        refine ⟨a, b.cons _, ?_, d, f, ?_⟩
        · intro k hk
          rcases List.mem_cons.1 hk with hk | hk
          · cases hk
          · exact c k hk
        · intro k hk
          rcases List.mem_cons.1 hk with hk | hk
          · cases hk
            obtain ⟨x, hx, hx'⟩ := List.any_eq_true.1 hr
            rw [Bool.and_eq_true, decide_eq_true_eq] at hx'
            refine Or.inr ⟨x, hx, by simpa using hx'.1, ?_⟩
            have := hx'.2
            omega
          · exact g k hk
      · have hl : launch limit ((n, Cmd.halt) :: p) cls = ((Cmd.halt, n) :: (launch limit p (cls.map (fun c => if c.nodes.contains n then { c with idle := c.idle - 1 } else c))).1,
            (n, Cmd.halt, -1) :: (launch limit p (cls.map (fun c => if c.nodes.contains n then { c with idle := c.idle - 1 } else c))).2) := by
          show (if cls.any (fun c => c.nodes.contains n && decide (c.idle ≤ c.min)) then _ else _) = _
          rw [if_neg hr]
        rw [hl]
        obtain ⟨a, b, c, d, f, g⟩ := ih (cls.map (fun c => if c.nodes.contains n then { c with idle := c.idle - 1 } else c))
        generalize launch limit p (cls.map (fun c => if c.nodes.contains n then { c with idle := c.idle - 1 } else c)) = r at *
        have hcl : ∀ x ∈ cls, x.nodes.contains n = true → x.min < x.idle := by
          intro x hx hxn
          apply Classical.byContradiction
          intro hlt
          apply hr
          rw [List.any_eq_true]
          exact ⟨x, hx, by rw [hxn]; simp; omega⟩
        have hcount : ∀ x : Cl, ((halted ((Cmd.halt, n) :: r.1)).filter (fun k => x.nodes.contains k)).length =
            ((halted r.1).filter (fun k => x.nodes.contains k)).length + (if x.nodes.contains n then 1 else 0) := by
          intro x
          have : halted ((Cmd.halt, n) :: r.1) = n :: halted r.1 := by simp [halted]
          rw [this]
          by_cases hx : x.nodes.contains n = true
          · rw [List.filter_cons_of_pos (p := fun k => x.nodes.contains k) hx, if_pos hx]
            rfl
          · rw [List.filter_cons_of_neg (p := fun k => x.nodes.contains k) hx, if_neg hx]
            rfl
        refine ⟨?_, ?_, ?_, ?_, ?_, ?_⟩
        · simp only [List.map_cons, a]
        · simp only [List.map_cons]
          exact b.cons_cons _
        · intro k hk
          rcases List.mem_cons.1 hk with hk | hk
          · cases hk
          · exact List.mem_cons_of_mem _ (c k hk)
        · intro x hx
          rcases List.mem_cons.1 hx with rfl | hx
          · rfl
          · exact d x hx
        · intro x hx
          have hx' := f _ (List.mem_map.2 ⟨x, hx, rfl⟩)
          dsimp only
          rw [hcount x]
          by_cases hxn : x.nodes.contains n = true
          · rw [if_pos hxn] at hx' ⊢
            dsimp only at hx'
            have := hcl x hx hxn
            omega
          · rw [if_neg hxn] at hx' ⊢
            omega
        · intro k hk
          rcases List.mem_cons.1 hk with hk | hk
          · cases hk; exact Or.inl (by simp)
          · rcases g k hk with h | ⟨x', hx', h1, h2⟩
            · exact Or.inl (List.mem_cons_of_mem _ h)
            · obtain ⟨x, hx, e⟩ := List.mem_map.1 hx'
              refine Or.inr ⟨x, hx, ?_, ?_⟩
              · by_cases hxn : x.nodes.contains n = true
                · rw [if_pos hxn] at e
                  rw [← e] at h1
                  exact h1
                · rw [if_neg hxn] at e
                  rw [e]
                  exact h1
              · dsimp only
                rw [hcount x]
                by_cases hxn : x.nodes.contains n = true
                · rw [if_pos hxn] at e
                  rw [← e] at h2
                  rw [if_pos hxn]
                  dsimp only at h2
                  omega
                · rw [if_neg hxn] at e
                  rw [← e] at h2
                  rw [if_neg hxn]
                  omega

end Oar.Greta
