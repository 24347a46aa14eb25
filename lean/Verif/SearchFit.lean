import Verif.SearchLemmas
import Verif.SchedSpec

/-!
# First fit
-/

namespace Oar.Kao
open Spec Oar.Hierarchy

/-- A job which is neither timesharing nor allowed in a placeholder. -/
def Plain (job : Job) : Prop := job.ts = false ∧ job.ph ≠ 2

/-- A candidate slot passed over by the search. -/
def Refused (ss : SlotSet) (hy : Hy) (groups : List Group) (w : Int) (s : Slot) : Prop :=
  ss.end_ < s.b + w - 1 ∨
  ∃ A : ProcSet, (∀ x, x ∈ A ↔ FreeDuring ss s.b w x) ∧ findJob A groups hy = some ∅

section
variable {ss : SlotSet} {c : List Slot}

theorem satisfiable_ne {hy : Hy} {groups : List Group} {A : ProcSet} (hok : ∀ g ∈ groups, GroupOk hy g)
    (h : Satisfiable hy groups A) : A ≠ ∅ := by
  obtain ⟨r, h1, h2⟩ := findJob_sat A hy groups hok
  have h3 := h2.2 h
  have h4 := findJob_subset A hy groups r h1
  rintro rfl
  exact h3 (Finset.subset_empty.1 h4)

theorem feasible_hi (hwf : WF ss) {hy : Hy} {groups : List Group} {w t : Int} (hw : 0 < w)
    (hok : ∀ g ∈ groups, GroupOk hy g) (h : Feasible ss hy groups w t) :
    ss.begin_ ≤ t ∧ t + w - 1 ≤ ss.end_ := by
  obtain ⟨A, h1, h2⟩ := h
  obtain ⟨x, hx⟩ := Finset.nonempty_iff_ne_empty.2 (satisfiable_ne hok h2)
  have hf := (h1 x).1 hx
  have hin : ∀ u, Free ss u x → ss.begin_ ≤ u ∧ u ≤ ss.end_ := by
    rintro u ⟨s, hs, h3, h4, _⟩
    obtain ⟨c, hc⟩ := hwf
    have := (tiled_bounds _ _ _ hc.tiled).2 s (hc.mem_iff.1 hs)
    omega
  have h3 := hin t (hf t (le_refl _) (by omega))
  have h4 := hin (t + w - 1) (hf _ (by omega) (by omega))
  omega

theorem refused_not_feasible (hwf : WF ss) {hy : Hy} {groups : List Group} {w : Int} {s : Slot} (hw : 0 < w)
    (hok : ∀ g ∈ groups, GroupOk hy g) (h : Refused ss hy groups w s) : ¬ Feasible ss hy groups w s.b := by
  intro hf
  rcases h with h | ⟨A, h1, h2⟩
  · have := feasible_hi hwf hw hok hf
    omega
  · obtain ⟨B, h3, h4⟩ := hf
    have : B = A := by ext x; rw [h1, h3]
    subst this
    obtain ⟨r, h5, h6⟩ := findJob_sat B hy groups hok
    rw [h2, Option.some.injEq] at h5
    subst h5
    exact absurd rfl (h6.2 h4)

theorem freeDuring_finite (hwf : WF ss) {w t : Int} (hw : 0 < w) :
    ∃ A : ProcSet, ∀ x, x ∈ A ↔ FreeDuring ss t w x := by
  classical
  obtain ⟨c, hc⟩ := hwf
  refine ⟨(bigUnion (ss.slots.map Slot.itvs)).filter (fun x => FreeDuring ss t w x), ?_⟩
  intro x
  rw [Finset.mem_filter, mem_bigUnion]
  constructor
  · exact fun h => h.2
  · intro h
    obtain ⟨s, hs, _, _, hx⟩ := h t (le_refl _) (by omega)
    exact ⟨⟨s.itvs, List.mem_map_of_mem hs, hx⟩, h⟩

/-- If the request can start at a date, it can also start at the begin of the slot of that date. -/
theorem feasible_slot (h : Partition ss c) {hy : Hy} {groups : List Group} {w t : Int} {s : Slot} (hw : 0 < w)
    (hs : s ∈ c) (h1 : s.b ≤ t) (h2 : t ≤ s.e) (hf : Feasible ss hy groups w t) :
    Feasible ss hy groups w s.b := by
  obtain ⟨A, hA, hsat⟩ := hf
  obtain ⟨B, hB⟩ := freeDuring_finite (ss := ss) ⟨c, h⟩ (w := w) (t := s.b) hw
  refine ⟨B, hB, satisfiable_mono ?_ hsat⟩
  intro x hx
  rw [hB]
  rw [hA] at hx
  intro u h3 h4
  by_cases hu : u ≤ s.e
  · rw [free_of_slot h hs h3 hu]
    exact (free_of_slot h hs h1 h2 x).1 (hx t (le_refl _) (by omega))
  · exact hx u (by omega) (by omega)

theorem available_plain {job : Job} (hp : Plain job) (l r : Nat) : available ss job l r = ss.intersec l r := by
  unfold available
  rw [if_neg]
  rintro (h | h)
  · rw [hp.1] at h; exact absurd h (by simp)
  · exact hp.2 h

/-- The search loop on the candidates of a chain suffix. -/
theorem searchLoop_sound (h : Partition ss c) {job : Job} (hp : Plain job) {hy : Hy} {groups : List Group} {w : Int}
    (hw : 0 < w) : ∀ (r l : List Slot) (res : Option (ProcSet × Nat × Nat)), c = l ++ r →
    searchLoop ss job groups hy (cands w r) = some res →
    (res = none ∧ ∀ s ∈ r, Refused ss hy groups w s) ∨
    ∃ P s Q R z, r = P ++ s :: Q ∧ z ∈ c ∧ res = some (R, s.id, z.id) ∧ (∀ x ∈ P, Refused ss hy groups w x) ∧
      Answers ss hy groups w s.b R
  | [], l, res, e, hs => by
    left
    simp only [cands, searchLoop, Option.some.injEq] at hs
    exact ⟨hs.symm, by simp⟩
  | s :: r, l, res, e, hs => by
    have hnext : ∀ (hR : Refused ss hy groups w s) (hs' : searchLoop ss job groups hy (cands w r) = some res),
        (res = none ∧ ∀ x ∈ s :: r, Refused ss hy groups w x) ∨
        ∃ P x Q R z, s :: r = P ++ x :: Q ∧ z ∈ c ∧ res = some (R, x.id, z.id) ∧
          (∀ x ∈ P, Refused ss hy groups w x) ∧ Answers ss hy groups w x.b R := by
      intro hR hs'
      rcases searchLoop_sound h hp hw r (l ++ [s]) res (by rw [e]; simp) hs' with ⟨h1, h2⟩ | ⟨P, x, Q, R, z, h1, hz, h2, h3, h4⟩
      · left
        refine ⟨h1, ?_⟩
        intro x hx
        rcases List.mem_cons.1 hx with rfl | hx
        · exact hR
        · exact h2 x hx
      · right
        refine ⟨s :: P, x, Q, R, z, by rw [h1]; rfl, hz, h2, ?_, h4⟩
        intro y hy
        rcases List.mem_cons.1 hy with rfl | hy
        · exact hR
        · exact h3 y hy
    rcases cand_spec h hw e with ⟨z, h1, h2, h3, A, h4, h5⟩ | ⟨h1, h2⟩
    · unfold cands at hs
      rw [h1] at hs
      simp only [searchLoop, available_plain hp, h4] at hs
      split at hs
      · simp at hs
      · rename_i R hR
        split at hs
        · rename_i hc
          right
          rw [Option.some.injEq] at hs
          refine ⟨[], s, r, R, z, rfl, h3, hs.symm, by simp, ?_⟩
          have hsub := findJob_subset A hy groups R hR
          refine ⟨fun x hx => (h5 x).1 (hsub hx), ?_, ?_, h2, A, h5, hR⟩
          · rwa [Ne, Finset.card_eq_zero] at hc
          · have := (tiled_bounds _ _ _ h.tiled).2 s (by rw [e]; simp)
            omega
        · rename_i hc
          rw [not_not, Finset.card_eq_zero] at hc
          exact hnext (Or.inr ⟨A, h5, by rw [hR, hc]⟩) hs
    · unfold cands at hs
      rw [h1] at hs
      exact hnext (Or.inl h2) hs

/-- With well-formed groups the search never raises. -/
theorem searchLoop_total (h : Partition ss c) {job : Job} (hp : Plain job) {hy : Hy} {groups : List Group} {w : Int}
    (hw : 0 < w) (hok : ∀ g ∈ groups, GroupOk hy g) : ∀ (r l : List Slot), c = l ++ r →
    ∃ res, searchLoop ss job groups hy (cands w r) = some res
  | [], _, _ => ⟨none, rfl⟩
  | s :: r, l, e => by
    have ih := searchLoop_total h hp hw hok r (l ++ [s]) (by rw [e]; simp)
    rcases cand_spec h hw e with ⟨z, h1, h2, h3, A, h4, h5⟩ | ⟨h1, h2⟩
    · unfold cands
      rw [h1]
      obtain ⟨R, hR, _⟩ := findJob_sat A hy groups hok
      simp only [searchLoop, available_plain hp, h4, hR]
      split
      · exact ⟨_, rfl⟩
      · exact ih
    · unfold cands
      rw [h1]
      exact ih

/-- `slot_id_at` on a well-formed timeline. -/
theorem slotIdAtLoop_spec (h : Partition ss c) (date : Int) : ∀ (r l : List Slot) (s : Slot) (fuel : Nat),
    c = l ++ s :: r → r.length < fuel → s.b ≤ date →
    (date ≤ ss.end_ ∧ ∃ x ∈ s :: r, ss.slotIdAtLoop date fuel s = some x.id ∧ x.b ≤ date ∧ date ≤ x.e) ∨
    (ss.end_ < date ∧ ss.slotIdAtLoop date fuel s = some 0)
  | r, l, s, 0, e, hf, hb => by omega
  | [], l, s, fuel + 1, e, hf, hb => by
    have hn : s.next = 0 := by rw [e] at h; exact h.next_last
    have hend : s.e = ss.end_ := last_slot (l := l) (i := []) h (by simpa using e)
    by_cases hd : s.e < date
    · right
      refine ⟨by omega, ?_⟩
      simp [SlotSet.slotIdAtLoop, hn, hd]
    · left
      refine ⟨by omega, s, by simp, ?_, hb, by omega⟩
      simp [SlotSet.slotIdAtLoop, hn, hd]
  | t :: r, l, s, fuel + 1, e, hf, hb => by
    obtain ⟨hn, hn0, hg⟩ := Spec.Partition.next_cons (l := l) (r := r) (s := s) (t := t) (by rw [e] at h; exact h)
    by_cases hd : s.e < date
    · have htb : t.b = s.e + 1 := by
        have := h.tiled
        rw [e] at this
        exact tiled_adj this
      have hstep : ss.slotIdAtLoop date (fuel + 1) s = ss.slotIdAtLoop date fuel t := by
        simp only [SlotSet.slotIdAtLoop]
        rw [if_pos ⟨hd, by rw [hn]; exact hn0⟩, hg]
      rw [hstep]
      rcases slotIdAtLoop_spec h date r (l ++ [s]) t fuel (by rw [e]; simp) (by simp at hf; omega) (by omega) with
        ⟨h1, x, h2, h3⟩ | h1
      · exact Or.inl ⟨h1, x, List.mem_cons_of_mem _ h2, h3⟩
      · exact Or.inr h1
    · left
      have := (tiled_bounds _ _ _ h.tiled).2 s (by rw [e]; simp)
      refine ⟨by omega, s, by simp, ?_, hb, by omega⟩
      simp only [SlotSet.slotIdAtLoop]
      rw [if_neg (fun hh => hd hh.1), if_neg (fun hh => hd hh.2)]

theorem slotIdAt_spec (h : Partition ss c) (date : Int) :
    (ss.begin_ ≤ date ∧ date ≤ ss.end_ ∧ ∃ x ∈ c, ss.slotIdAt date = some x.id ∧ x.b ≤ date ∧ date ≤ x.e) ∨
    ((date < ss.begin_ ∨ ss.end_ < date) ∧ ss.slotIdAt date = some 0) := by
  cases hc : c with
  | nil => exact absurd hc h.ne
  | cons f r =>
    subst hc
    have hfb : f.b = ss.begin_ := h.tiled.1
    unfold SlotSet.slotIdAt
    rw [h.first]
    by_cases hd : f.b > date
    · right
      simp only [if_pos hd]
      exact ⟨Or.inl (by omega), trivial⟩
    · simp only [if_neg hd]
      rcases slotIdAtLoop_spec h date r [] f ss.slots.length rfl (by rw [h.length_eq]; simp) (by omega) with
        ⟨h1, x, h2, h3⟩ | ⟨h1, h2⟩
      · left; exact ⟨by omega, h1, x, h2, h3⟩
      · right; exact ⟨Or.inr h1, h2⟩

end

/-- All the cached slots exist. -/
def CacheIds (ss : SlotSet) : Prop := ∀ k i, ss.cache.lookup k = some i → ∃ s ∈ ss.slots, s.id = i

/-- Where the search begins: the first slot of the suffix explored. -/
inductive StartsAt (ss : SlotSet) (job : Job) (mld : Mld) (minStart : Int) (s : Slot) : Prop
  | first (h : s.b = ss.begin_) (hm : minStart < 0 ∨ minStart < ss.begin_ ∨ ss.end_ < minStart)
  | cached (k : String) (h1 : minStart < 0) (h2 : job.keyCache.lookup mld.id = some k)
      (h3 : ss.cache.lookup k = some s.id)
  | at_ (h0 : 0 ≤ minStart) (h1 : s.b ≤ minStart) (h2 : minStart ≤ s.e)

theorem searchStart_spec {ss : SlotSet} {c : List Slot} (h : Partition ss c) (hci : CacheIds ss) {job : Job} {mld : Mld}
    {minStart : Int} {sid : Nat} (hs : searchStart ss job mld minStart = some sid) (w : Int) (hw : 0 < w) :
    ∃ l s r, c = l ++ s :: r ∧ StartsAt ss job mld minStart s ∧ ss.traverseWidth w sid = some (cands w (s :: r)) ∧
      (if sid ≠ 0 then ss.get? sid else ss.first?) = some s := by
  cases hc : c with
  | nil => exact absurd hc h.ne
  | cons f r =>
    subst hc
    have hfb : f.b = ss.begin_ := h.tiled.1
    have hf0 := (h.range f (by simp)).1
    unfold searchStart at hs
    rw [h.first] at hs
    simp only at hs
    by_cases hm : minStart < 0
    · rw [if_pos hm] at hs
      have hfirst : sid = f.id → ∃ l s r', f :: r = l ++ s :: r' ∧ StartsAt ss job mld minStart s ∧
          ss.traverseWidth w sid = some (cands w (s :: r')) ∧
          (if sid ≠ 0 then ss.get? sid else ss.first?) = some s := by
        rintro rfl
        refine ⟨[], f, r, rfl, .first hfb (Or.inl hm), traverseWidth_from h hw (l := []) rfl, ?_⟩
        rw [if_pos (by omega)]; exact h.get (by simp)
      split at hs
      · exact hfirst (Option.some.inj hs).symm
      · split at hs
        · simp at hs
        · rename_i k hk
          cases hl : ss.cache.lookup k with
          | none => rw [hl] at hs; exact hfirst (Option.some.inj hs).symm
          | some i =>
            rw [hl] at hs
            have hi : i = sid := Option.some.inj hs
            subst hi
            obtain ⟨s, hsm, hsi⟩ := hci k i hl
            subst hsi
            have hsc := h.mem_iff.1 hsm
            obtain ⟨l, r', e⟩ := List.append_of_mem hsc
            refine ⟨l, s, r', e, .cached k hm hk hl, traverseWidth_from h hw e, ?_⟩
            have := (h.range s hsc).1
            rw [if_pos (by omega)]; exact h.get hsc
    · rw [if_neg hm] at hs
      rcases slotIdAt_spec h minStart with ⟨h1, h2, x, h3, h4, h5, h6⟩ | ⟨h1, h2⟩
      · rw [h4] at hs
        obtain rfl := Option.some.inj hs
        obtain ⟨l, r', e⟩ := List.append_of_mem h3
        refine ⟨l, x, r', e, .at_ (by omega) h5 h6, traverseWidth_from h hw e, ?_⟩
        have := (h.range x h3).1
        rw [if_pos (by omega)]; exact h.get h3
      · rw [h2] at hs
        obtain rfl := Option.some.inj hs
        refine ⟨[], f, r, rfl, .first hfb (Or.inr h1), ?_, ?_⟩
        · exact traverseWidth_all h hw
        · simpa using h.first

/-- Same timeline up to the cache. -/
def SameSlots (ss ss' : SlotSet) : Prop :=
  ss'.slots = ss.slots ∧ ss'.begin_ = ss.begin_ ∧ ss'.end_ = ss.end_ ∧ ss'.lastId = ss.lastId

theorem SameSlots.part {ss ss' : SlotSet} {c : List Slot} (h : SameSlots ss ss') (hp : Partition ss c) :
    Partition ss' c :=
  ⟨h.1 ▸ hp.perm, hp.ne, hp.ids, h.2.2.2 ▸ hp.range, hp.linked, by rw [h.2.1, h.2.2.1]; exact hp.tiled⟩

theorem lookup_dictSet {α : Type} (k k' : String) (v : α) : ∀ l : List (String × α),
    (dictSet k v l).lookup k' = if k' = k then some v else l.lookup k'
  | [] => by
    by_cases h : k' = k
    · subst h; simp [dictSet, List.lookup_cons]
    · simp [dictSet, List.lookup_cons, h, beq_eq_false_iff_ne.2 h]
  | (k0, v0) :: l => by
    unfold dictSet
    by_cases h0 : k0 = k
    · subst h0
      rw [if_pos rfl]
      by_cases h : k' = k0
      · subst h; simp [List.lookup_cons]
      · simp [List.lookup_cons, h, beq_eq_false_iff_ne.2 h]
    · rw [if_neg h0]
      by_cases h : k' = k0
      · subst h
        simp [List.lookup_cons, h0]
      · simp only [List.lookup_cons, beq_eq_false_iff_ne.2 h, lookup_dictSet k k' v l]

/-- The no-quotas search. -/
theorem findNoQuotas_spec {ss ss' : SlotSet} {c : List Slot} (h : Partition ss c) (hci : CacheIds ss) {job : Job}
    (hp : Plain job) {mld : Mld} {hy : Hy} {minStart : Int} {res : Option (ProcSet × Nat × Nat)}
    (hf : findNoQuotas ss job mld hy minStart = some (ss', res)) :
    0 < mld.walltime ∧ SameSlots ss ss' ∧
    ∃ l s r, c = l ++ s :: r ∧ StartsAt ss job mld minStart s ∧
      ((res = none ∧ ss'.cache = ss.cache ∧ ∀ x ∈ s :: r, Refused ss hy mld.groups mld.walltime x) ∨
       ∃ P x Q R z, s :: r = P ++ x :: Q ∧ z ∈ c ∧ res = some (R, x.id, z.id) ∧
        (∀ y ∈ P, Refused ss hy mld.groups mld.walltime y) ∧ Answers ss hy mld.groups mld.walltime x.b R ∧
        ((ss'.cache = ss.cache ∧ (job.keyCache.isEmpty ∨ 0 ≤ minStart)) ∨
          ∃ k, minStart < 0 ∧ job.keyCache.lookup mld.id = some k ∧ ss'.cache = dictSet k x.id ss.cache)) := by
  unfold findNoQuotas at hf
  split at hf
  · simp at hf
  · rename_i sid hsid
    split at hf
    · simp at hf
    · rename_i cs hcs
      have hw : 0 < mld.walltime := by
        unfold SlotSet.traverseWidth at hcs
        split at hcs
        · assumption
        · simp at hcs
      obtain ⟨l, s, r, e, hst, htw, _⟩ := searchStart_spec h hci hsid _ hw
      rw [htw, Option.some.injEq] at hcs
      subst hcs
      refine ⟨hw, ?_⟩
      split at hf
      · simp at hf
      · rename_i hsl
        simp only [Option.some.injEq, Prod.mk.injEq] at hf
        obtain ⟨rfl, rfl⟩ := hf
        refine ⟨⟨rfl, rfl, rfl, rfl⟩, l, s, r, e, hst, ?_⟩
        rcases searchLoop_sound h hp hw (s :: r) l none e hsl with ⟨_, h2⟩ | ⟨_, _, _, _, _, _, _, h2, _⟩
        · exact Or.inl ⟨rfl, rfl, h2⟩
        · simp at h2
      · rename_i R a b hsl
        rcases searchLoop_sound h hp hw (s :: r) l _ e hsl with ⟨h1, _⟩ | ⟨P, x, Q, R', z, h1, h2, h3, h4, h5⟩
        · simp at h1
        · simp only [Option.some.injEq, Prod.mk.injEq] at h3
          obtain ⟨rfl, rfl, rfl⟩ := h3
          split at hf
          · rename_i hk
            split at hf
            · simp at hf
            · rename_i k hkk
              simp only [Option.some.injEq, Prod.mk.injEq] at hf
              obtain ⟨rfl, rfl⟩ := hf
              exact ⟨⟨rfl, rfl, rfl, rfl⟩, l, s, r, e, hst, Or.inr ⟨P, x, Q, R, z, h1, h2, rfl, h4, h5,
                Or.inr ⟨k, hk.2, hkk, rfl⟩⟩⟩
          · rename_i hk
            simp only [Option.some.injEq, Prod.mk.injEq] at hf
            obtain ⟨rfl, rfl⟩ := hf
            refine ⟨⟨rfl, rfl, rfl, rfl⟩, l, s, r, e, hst, Or.inr ⟨P, x, Q, R, z, h1, h2, rfl, h4, h5,
                Or.inl ⟨rfl, ?_⟩⟩⟩
            by_contra hh
            push Not at hh
            exact hk ⟨by simpa using hh.1, by omega⟩

end Oar.Kao
