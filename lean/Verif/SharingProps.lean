import Verif.SharingSpec
import Verif.JobTypes

/-!
# Property theorems about sharing a resource (C108)
-/

namespace Oar.Kao.Sharing
open Spec Oar.Hierarchy Oar.Tools

/-- Resource `k` is recorded as shared under `(u, n)`. -/
def InTs (p : Pay) (u n : String) (k : Nat) : Prop := ∃ d X, p.ts.lookup u = some d ∧ d.lookup n = some X ∧ k ∈ X

/-- Resource `k` is recorded in the placeholder `n`. -/
def InPh (p : Pay) (n : String) (k : Nat) : Prop := ∃ X, p.ph.lookup n = some X ∧ k ∈ X

/-- The job occupies the resource, or the date is the second that follows its window. -/
def Near (j : Job) (t : Int) (k : Nat) : Prop :=
  ∃ w R, j.walltime = some w ∧ j.resSet = some R ∧ j.startTime ≤ t ∧ t ≤ j.startTime + w ∧ k ∈ R

theorem inTs_effect {ctx : Ctx} {j : Job} {w : Int} {R : ProcSet} {p : Pay} {u n : String} {k : Nat}
    (h : InTs (effect ctx j w R true p) u n k) : InTs p u n k ∨ (j.ts = true ∧ u = j.tsUser ∧ n = j.tsName ∧ k ∈ R) := by
  obtain ⟨d, X, h1, h2, h3⟩ := h
  have e : (effect ctx j w R true p).ts = if j.ts then
      dictSet j.tsUser (match dictGet ((dictGet p.ts j.tsUser).getD []) j.tsName with
        | some _ => (dictGet p.ts j.tsUser).getD []
        | none => dictSet j.tsName R ((dictGet p.ts j.tsUser).getD [])) p.ts
    else p.ts := rfl
  rw [e] at h1
  by_cases hts : j.ts = true
  · rw [if_pos hts, lookup_dictSet] at h1
    by_cases hu : u = j.tsUser
    · rw [if_pos hu, Option.some.injEq] at h1
      cases hd : dictGet p.ts j.tsUser with
      | none =>
        rw [hd] at h1
        dsimp only [Option.getD] at h1
        have e2 : dictGet ([] : List (String × ProcSet)) j.tsName = none := rfl
        rw [e2] at h1
        dsimp only at h1
        rw [← h1, lookup_dictSet] at h2
        by_cases hn : n = j.tsName
        · rw [if_pos hn, Option.some.injEq] at h2
          exact Or.inr ⟨hts, hu, hn, h2 ▸ h3⟩
        · rw [if_neg hn] at h2
          cases h2
      | some d0 =>
        rw [hd] at h1
        dsimp only [Option.getD] at h1
        cases hx : dictGet d0 j.tsName with
        | some X0 =>
          rw [hx] at h1
          dsimp only at h1
          exact Or.inl ⟨d, X, by rw [hu, ← h1]; exact hd, h2, h3⟩
        | none =>
          rw [hx] at h1
          dsimp only at h1
          rw [← h1, lookup_dictSet] at h2
          by_cases hn : n = j.tsName
          · rw [if_pos hn, Option.some.injEq] at h2
            exact Or.inr ⟨hts, hu, hn, h2 ▸ h3⟩
          · rw [if_neg hn] at h2
            exact Or.inl ⟨d0, X, by rw [hu]; exact hd, h2, h3⟩
    · rw [if_neg hu] at h1
      exact Or.inl ⟨d, X, h1, h2, h3⟩
  · rw [if_neg hts] at h1
    exact Or.inl ⟨d, X, h1, h2, h3⟩

theorem inPh_effect {ctx : Ctx} {j : Job} {w : Int} {R : ProcSet} {p : Pay} {n : String} {k : Nat}
    (h : InPh (effect ctx j w R true p) n k) :
    (j.ph = 1 ∧ n = j.phName ∧ k ∈ R) ∨ (InPh p n k ∧ (j.ph = 1 → n ≠ j.phName) ∧ (j.ph = 2 → n = j.phName → k ∉ R)) := by
  obtain ⟨X, h1, h2⟩ := h
  have e : (effect ctx j w R true p).ph = if j.ph = 2 then
      (match dictGet p.ph j.phName with
      | some x => dictSet j.phName (x \ R) p.ph
      | none => p.ph)
    else if j.ph = 1 then dictSet j.phName R p.ph else p.ph := rfl
  rw [e] at h1
  by_cases h2' : j.ph = 2
  · rw [if_pos h2'] at h1
    have hne : j.ph ≠ 1 := by rw [h2']; decide
    cases hx : dictGet p.ph j.phName with
    | none =>
      rw [hx] at h1
      refine Or.inr ⟨⟨X, h1, h2⟩, fun h => absurd h hne, fun _ hn => ?_⟩
      rw [hn] at h1
      have : p.ph.lookup j.phName = none := hx
      rw [this] at h1
      cases h1
    | some x =>
      rw [hx] at h1
      dsimp only at h1
      rw [lookup_dictSet] at h1
      by_cases hn : n = j.phName
      · rw [if_pos hn, Option.some.injEq] at h1
        rw [← h1, Finset.mem_sdiff] at h2
        exact Or.inr ⟨⟨x, by rw [hn]; exact hx, h2.1⟩, fun h => absurd h hne, fun _ _ => h2.2⟩
      · rw [if_neg hn] at h1
        exact Or.inr ⟨⟨X, h1, h2⟩, fun h => absurd h hne, fun _ h => absurd h hn⟩
  · rw [if_neg h2'] at h1
    by_cases h1' : j.ph = 1
    · rw [if_pos h1', lookup_dictSet] at h1
      by_cases hn : n = j.phName
      · rw [if_pos hn, Option.some.injEq] at h1
        exact Or.inl ⟨h1', hn, h1 ▸ h2⟩
      · rw [if_neg hn] at h1
        exact Or.inr ⟨⟨X, h1, h2⟩, fun _ => hn, fun h => absurd h h2'⟩
    · rw [if_neg h1'] at h1
      exact Or.inr ⟨⟨X, h1, h2⟩, fun h => absurd h h1', fun h => absurd h h2'⟩

/-- What the content of the timeline at a date says about the jobs. -/
structure Inv (js : List Job) (t : Int) (p : Pay) : Prop where
  free : ∀ k ∈ p.itvs, ∀ a ∈ js, ¬ Occupies a t k
  apartTs : ∀ k ∈ p.itvs, ∀ u n, ¬ InTs p u n k
  apartPh : ∀ k ∈ p.itvs, ∀ n, ¬ InPh p n k
  tsPh : ∀ k u n m, InTs p u n k → ¬ InPh p m k
  phPh : ∀ k n m, InPh p n k → InPh p m k → n = m
  tsAll : ∀ k u n, InTs p u n k → ∀ a ∈ js, Occupies a t k → a.ts = true
  tsOne : ∀ k u n, InTs p u n k → ∃ a ∈ js, Near a t k ∧ a.ts = true ∧ a.tsUser = u ∧ a.tsName = n
  phAll : ∀ k n, InPh p n k → ∀ a ∈ js, Occupies a t k → a.ph = 1 ∧ a.phName = n
  pairs : js.Pairwise (fun a b => ∀ k, Occupies a t k → Occupies b t k → MayShare a b)
  later : js.Pairwise (fun a b => ∀ k, Occupies a t k → Occupies b t k → b.ts = true → ∃ c ∈ js, Near c t k ∧ c.ts = true ∧ Covers c b)

theorem inv_step {ctx : Ctx} {js : List Job} {t : Int} {p : Pay} {j : Job} {w : Int} {R : ProcSet} (i : Inv js t p) (hw : j.walltime = some w)
    (hR : j.resSet = some R) (h1 : j.startTime ≤ t) (h2 : t ≤ j.startTime + w) (hx : j.ts = true → j.ph = 0)
    (hm : ∀ k ∈ R, k ∈ p.itvs ∨ (j.ts = true ∧ ∃ u n, (u = "*" ∨ u = j.user) ∧ (n = "*" ∨ n = j.name) ∧ InTs p u n k) ∨ (j.ph = 2 ∧ InPh p j.phName k)) :
    Inv (js ++ [j]) t (effect ctx j w R true p) := by
  have hocc : ∀ k, Occupies j t k → k ∈ R := by
    rintro k ⟨w', R', e1, e2, _, _, h⟩
    rw [hR, Option.some.injEq] at e2
    exact e2 ▸ h
  have hph : j.ph = 1 → j.ts = false := fun h => by
    cases hts : j.ts with
    | false => rfl
    | true => rw [hx hts] at h; cases h
  have hph2 : j.ph = 2 → j.ts = false := fun h => by
    cases hts : j.ts with
    | false => rfl
    | true => rw [hx hts] at h; cases h
  have hitv : (effect ctx j w R true p).itvs = p.itvs \ R := rfl
  -- a resource of the new job that is recorded as shared is so because the job is timesharing
  have hts_of : ∀ k ∈ R, ∀ u n, InTs p u n k → j.ts = true := by
    intro k hk u n h
    rcases hm k hk with h3 | h3 | h3
    · exact absurd h (i.apartTs k h3 u n)
    · exact h3.1
    · exact absurd h3.2 (i.tsPh k u n _ h)
  have hph_of : ∀ k ∈ R, ∀ n, InPh p n k → j.ph = 2 ∧ n = j.phName := by
    intro k hk n h
    rcases hm k hk with h3 | ⟨_, u, m, _, _, h3⟩ | h3
    · exact absurd h (i.apartPh k h3 n)
    · exact absurd h (i.tsPh k u m n h3)
    · exact ⟨h3.1, i.phPh k _ _ h h3.2⟩
  have hph_new : ∀ k n, InPh (effect ctx j w R true p) n k → k ∈ R → j.ph = 1 ∧ n = j.phName := by
    intro k n h hk
    rcases inPh_effect h with h3 | ⟨h3, _, h5⟩
    · exact ⟨h3.1, h3.2.1⟩
    · have := hph_of k hk n h3
      exact absurd hk (h5 this.1 this.2)
  refine ⟨?_, ?_, ?_, ?_, ?_, ?_, ?_, ?_, ?_, ?_⟩
  · intro k hk a ha ho
    rw [hitv, Finset.mem_sdiff] at hk
    rcases List.mem_append.1 ha with ha | ha
    · exact i.free k hk.1 a ha ho
    · rw [List.mem_singleton.1 ha] at ho
      exact hk.2 (hocc k ho)
  · intro k hk u n h
    rw [hitv, Finset.mem_sdiff] at hk
    rcases inTs_effect h with h | h
    · exact i.apartTs k hk.1 u n h
    · exact hk.2 h.2.2.2
  · intro k hk n h
    rw [hitv, Finset.mem_sdiff] at hk
    rcases inPh_effect h with h | h
    · exact hk.2 h.2.2
    · exact i.apartPh k hk.1 n h.1
  · intro k u n m h1' h2'
    rcases inTs_effect h1' with h | h
    · rcases inPh_effect h2' with h' | h'
      · have := hts_of k h'.2.2 u n h
        rw [hph h'.1] at this; cases this
      · exact i.tsPh k u n m h h'.1
    · have := hph_new k m h2' h.2.2.2
      rw [hph this.1] at h; cases h.1
  · intro k n m h1' h2'
    by_cases hk : k ∈ R
    · rw [(hph_new k n h1' hk).2, (hph_new k m h2' hk).2]
    · rcases inPh_effect h1' with h | h
      · exact absurd h.2.2 hk
      · rcases inPh_effect h2' with h' | h'
        · exact absurd h'.2.2 hk
        · exact i.phPh k n m h.1 h'.1
  · intro k u n h a ha ho
    rcases List.mem_append.1 ha with ha | ha
    · rcases inTs_effect h with h | ⟨h3, _, _, h4⟩
      · exact i.tsAll k u n h a ha ho
      · rcases hm k h4 with h5 | ⟨_, u', n', _, _, h5⟩ | h5
        · exact absurd ho (i.free k h5 a ha)
        · exact i.tsAll k u' n' h5 a ha ho
        · rw [hph2 h5.1] at h3; cases h3
    · rw [List.mem_singleton.1 ha] at ho ⊢
      rcases inTs_effect h with h | h
      · exact hts_of k (hocc k ho) u n h
      · exact h.1
  · intro k u n h
    rcases inTs_effect h with h | ⟨h3, h4, h5, h6⟩
    · obtain ⟨a, ha, h⟩ := i.tsOne k u n h
      exact ⟨a, List.mem_append_left _ ha, h⟩
    · exact ⟨j, by simp, ⟨w, R, hw, hR, h1, h2, h6⟩, h3, h4.symm, h5.symm⟩
  · intro k n h a ha ho
    rcases List.mem_append.1 ha with ha | ha
    · by_cases hk : k ∈ R
      · have h3 := hph_new k n h hk
        rcases hm k hk with h5 | h5 | h5
        · exact absurd ho (i.free k h5 a ha)
        · rw [hph h3.1] at h5; cases h5.1
        · rw [h3.1] at h5; cases h5.1
      · rcases inPh_effect h with h | h
        · exact absurd h.2.2 hk
        · exact i.phAll k n h.1 a ha ho
    · rw [List.mem_singleton.1 ha] at ho ⊢
      have := hph_new k n h (hocc k ho)
      exact ⟨this.1, this.2.symm⟩
  · rw [List.pairwise_append]
    refine ⟨i.pairs, by simp, ?_⟩
    intro a ha b hb k h3 h4
    rw [List.mem_singleton.1 hb] at h4 ⊢
    rcases hm k (hocc k h4) with h5 | ⟨h5, u, n, _, _, h6⟩ | ⟨h5, h6⟩
    · exact absurd h3 (i.free k h5 a ha)
    · exact Or.inl ⟨i.tsAll k u n h6 a ha h3, h5⟩
    · have := i.phAll k _ h6 a ha h3
      exact Or.inr (Or.inl ⟨this.1, h5, this.2⟩)
  · rw [List.pairwise_append]
    refine ⟨i.later.imp (fun h k h3 h4 h5 => ?_), by simp, ?_⟩
    · obtain ⟨c, hc, h⟩ := h k h3 h4 h5
      exact ⟨c, List.mem_append_left _ hc, h⟩
    · intro a ha b hb k h3 h4 hbt
      rw [List.mem_singleton.1 hb] at h4 hbt ⊢
      rcases hm k (hocc k h4) with h5 | ⟨h5, u, n, h6, h7, h8⟩ | ⟨h5, h6⟩
      · exact absurd h3 (i.free k h5 a ha)
      · obtain ⟨c, hc, h9, h10, h11, h12⟩ := i.tsOne k u n h8
        exact ⟨c, List.mem_append_left _ hc, h9, h10, by rw [h11]; exact h6, by rw [h12]; exact h7⟩
      · rw [hph2 h5] at hbt; cases hbt

theorem inv_same {js : List Job} {t : Int} {p : Pay} {j : Job} (i : Inv js t p) (hn : ∀ k, ¬ Occupies j t k) : Inv (js ++ [j]) t p := by
  refine ⟨?_, i.apartTs, i.apartPh, i.tsPh, i.phPh, ?_, ?_, ?_, ?_, ?_⟩
  · intro k hk a ha ho
    rcases List.mem_append.1 ha with ha | ha
    · exact i.free k hk a ha ho
    · rw [List.mem_singleton.1 ha] at ho; exact hn k ho
  · intro k u n h a ha ho
    rcases List.mem_append.1 ha with ha | ha
    · exact i.tsAll k u n h a ha ho
    · rw [List.mem_singleton.1 ha] at ho; exact absurd ho (hn k)
  · intro k u n h
    obtain ⟨a, ha, h⟩ := i.tsOne k u n h
    exact ⟨a, List.mem_append_left _ ha, h⟩
  · intro k n h a ha ho
    rcases List.mem_append.1 ha with ha | ha
    · exact i.phAll k n h a ha ho
    · rw [List.mem_singleton.1 ha] at ho; exact absurd ho (hn k)
  · rw [List.pairwise_append]
    refine ⟨i.pairs, by simp, ?_⟩
    intro a ha b hb k h3 h4
    rw [List.mem_singleton.1 hb] at h4
    exact absurd h4 (hn k)
  · rw [List.pairwise_append]
    refine ⟨i.later.imp (fun h k h3 h4 h5 => ?_), by simp, ?_⟩
    · obtain ⟨c, hc, h⟩ := h k h3 h4 h5
      exact ⟨c, List.mem_append_left _ hc, h⟩
    · intro a ha b hb k h3 h4
      rw [List.mem_singleton.1 hb] at h4
      exact absurd h4 (hn k)

theorem pay_slot {ss : SlotSet} {t : Int} {p : Pay} (h : ss.pay t = some p) : ∃ s ∈ ss.slots, s.b ≤ t ∧ t ≤ s.e ∧ s.pay = p := by
  unfold SlotSet.pay payAt at h
  cases hf : ss.slots.find? (fun s => s.has t) with
  | none => rw [hf] at h; cases h
  | some s =>
    rw [hf] at h
    have h1 := List.find?_some hf
    have := has_iff.1 h1
    exact ⟨s, List.mem_of_find?_eq_some hf, this.1, this.2, by simpa using h⟩

/-- Two slots that contain the same date are the same. -/
theorem slot_unique {ss : SlotSet} (hwf : WF ss) {s1 s2 : Slot} (h1 : s1 ∈ ss.slots) (h2 : s2 ∈ ss.slots) (t : Int) (a1 : s1.b ≤ t) (b1 : t ≤ s1.e)
    (a2 : s2.b ≤ t) (b2 : t ≤ s2.e) : s1 = s2 := by
  obtain ⟨c, hc⟩ := hwf
  exact tiled_unique c _ _ t hc.tiled s1 s2 (hc.mem_iff.1 h1) (hc.mem_iff.1 h2) a1 b1 a2 b2

theorem inv_history {ctx : Ctx} {ss0 : SlotSet} (hwf : WF ss0) (hf : Fresh ss0) {js : List Job} {ss : SlotSet} (h : History ctx ss0 js ss) :
    WF ss ∧ SameMeta ss0 ss ∧ ∀ t p, ss.pay t = some p → Inv js t p := by
  induction h with
  | start =>
    refine ⟨hwf, ⟨rfl, rfl, rfl⟩, ?_⟩
    intro t p hp
    obtain ⟨s, hs, _, _, rfl⟩ := pay_slot hp
    obtain ⟨e1, e2⟩ := hf s hs
    have ht : ∀ u n k, ¬ InTs s.pay u n k := by
      rintro u n k ⟨d, X, h, _⟩
      have : s.pay.ts = [] := e1
      rw [this] at h; cases h
    have hp : ∀ n k, ¬ InPh s.pay n k := by
      rintro n k ⟨X, h, _⟩
      have : s.pay.ph = [] := e2
      rw [this] at h; cases h
    refine ⟨by simp, fun k _ u n => ht u n k, fun k _ n => hp n k, fun k u n _ h => absurd h (ht u n k), fun k n _ h => absurd h (hp n k),
      by simp, fun k u n h => absurd h (ht u n k), by simp, List.Pairwise.nil, List.Pairwise.nil⟩
  | @insert js ss ss' j w R _ hw hR hw1 hb he hx htk hs ih =>
    obtain ⟨ih1, ih2, ih3⟩ := ih
    obtain ⟨ss1, extra, h1, h2, h3, h4, h5⟩ := insert_pointwise_strong ctx ss j w R true ih1 hw1 hw hR (by omega) he
    rw [hs, Option.some.injEq] at h1
    subst h1
    refine ⟨h2, ⟨h3.1.trans ih2.1, h3.2.1.trans ih2.2.1, h3.2.2.trans ih2.2.2⟩, ?_⟩
    intro t p' hp'
    rw [h5 t] at hp'
    cases hp : ss.pay t with
    | none => rw [hp] at hp'; cases hp'
    | some p =>
      rw [hp, Option.map_some, Option.some.injEq] at hp'
      have i := ih3 t p hp
      by_cases hc : j.startTime ≤ t ∧ (t < j.startTime + w ∨ (extra = true ∧ t = j.startTime + w))
      · rw [if_pos hc] at hp'
        subst hp'
        refine inv_step i hw hR hc.1 (by rcases hc.2 with h | h <;> omega) hx ?_
        intro k hk
        obtain ⟨s, hsl, b1, b2, rfl⟩ := pay_slot hp
        have hmu : MayUse j s k := by
          rcases hc.2 with h | ⟨h, e⟩
          · exact htk t hc.1 h s hsl b1 b2 k hk
          · rcases h4 h with h | ⟨s', hs', h, hb'⟩
            · omega
            · have : s = s' := slot_unique ih1 hsl hs' t b1 b2 (by omega) (by omega)
              subst this
              exact htk (t - 1) (by omega) (by omega) s hsl (by omega) (by omega) k hk
        rcases hmu with h | ⟨h, u, d, n, X, h6, h7, h8, h9, h10⟩ | ⟨h, X, h6, h7⟩
        · exact Or.inl h
        · exact Or.inr (Or.inl ⟨h, u, n, h6, h8, d, X, h7, h9, h10⟩)
        · exact Or.inr (Or.inr ⟨h, X, h6, h7⟩)
      · rw [if_neg hc] at hp'
        subst hp'
        refine inv_same i ?_
        rintro k ⟨w', R', e1, e2, h6, h7, _⟩
        rw [hw, Option.some.injEq] at e1
        exact hc ⟨h6, Or.inl (by omega)⟩

/-- **C108, partial.** Jobs are inserted one after the other, each where the timeline says it may be: two jobs hold the same resource at the same
date only when both are timesharing, or one is a placeholder in which the other is allowed. Missing: jobs that are timesharing and related to
a placeholder at once; a later round inserts the jobs again in order of date (`placeholder_violated`); the search does not always obey the
timeline (`sharing_violated`, C11). -/
theorem shared_only_if_partial (ctx : Ctx) (ss0 ss : SlotSet) (js : List Job) (hwf : WF ss0) (hf : Fresh ss0) (h : History ctx ss0 js ss) :
    js.Pairwise (fun a b => ∀ t k, ss0.begin_ ≤ t → t ≤ ss0.end_ → Occupies a t k → Occupies b t k → MayShare a b) := by
  obtain ⟨h1, h2, h3⟩ := inv_history hwf hf h
  have key : ∀ t, ss0.begin_ ≤ t → t ≤ ss0.end_ → js.Pairwise (fun a b => ∀ k, Occupies a t k → Occupies b t k → MayShare a b) := by
    intro t b1 b2
    have := (pay_isSome_iff h1 t).2 (by rw [h2.1, h2.2.1]; exact ⟨b1, b2⟩)
    obtain ⟨p, hp⟩ := Option.isSome_iff_exists.1 this
    exact (h3 t p hp).pairs
  rw [List.pairwise_iff_getElem]
  intro i j hi hj hij t k b1 b2
  exact List.pairwise_iff_getElem.1 (key t b1 b2) i j hi hj hij k

/-- **C108.** A timesharing job that holds a resource with another, earlier one, is covered by what a timesharing job of this resource (at this
date, or that ends there) asked to share. -/
theorem shared_is_covered (ctx : Ctx) (ss0 ss : SlotSet) (js : List Job) (hwf : WF ss0) (hf : Fresh ss0) (h : History ctx ss0 js ss) :
    js.Pairwise (fun a b => ∀ t k, ss0.begin_ ≤ t → t ≤ ss0.end_ → Occupies a t k → Occupies b t k → b.ts = true →
      ∃ c ∈ js, c.ts = true ∧ Covers c b ∧ ∃ w R, c.walltime = some w ∧ c.resSet = some R ∧ k ∈ R ∧ c.startTime ≤ t ∧ t ≤ c.startTime + w) := by
  obtain ⟨h1, h2, h3⟩ := inv_history hwf hf h
  rw [List.pairwise_iff_getElem]
  intro i j hi hj hij t k b1 b2 h4 h5 h6
  have := (pay_isSome_iff h1 t).2 (by rw [h2.1, h2.2.1]; exact ⟨b1, b2⟩)
  obtain ⟨p, hp⟩ := Option.isSome_iff_exists.1 this
  obtain ⟨c, hc, ⟨w, R, e1, e2, e3, e4, e5⟩, h8, h9⟩ := List.pairwise_iff_getElem.1 (h3 t p hp).later i j hi hj hij k h4 h5 h6
  exact ⟨c, hc, h8, h9, w, R, e1, e2, e5, e3, e4⟩

/-! ### The places the search proposes -/

theorem slot_within {ss : SlotSet} (hwf : WF ss) {a z s : Slot} (ha : a ∈ ss.slots) (hz : z ∈ ss.slots) (hs : s ∈ ss.slots) {u : Int}
    (h1 : a.b ≤ u) (h2 : u ≤ z.e) (h3 : s.b ≤ u) (h4 : u ≤ s.e) (hae : a.b ≤ a.e) (hzb : z.b ≤ z.e) : a.b ≤ s.b ∧ s.e ≤ z.e := by
  constructor
  · by_contra hn
    have := slot_unique hwf hs ha a.b (by omega) (by omega) (by omega) (by omega)
    subst this; omega
  · by_contra hn
    have := slot_unique hwf hs hz z.e (by omega) (by omega) (by omega) (by omega)
    subst this; omega

theorem slot_nonempty {ss : SlotSet} (hwf : WF ss) {s : Slot} (hs : s ∈ ss.slots) : s.b ≤ s.e ∧ ss.begin_ ≤ s.b := by
  obtain ⟨c, hc⟩ := hwf
  have := (tiled_bounds _ _ _ hc.tiled).2 s (hc.mem_iff.1 hs)
  omega

/-- **C108, partial.** The resources that the search proposes between two slots, to a job that begins with the first one and ends in the last one, may be taken (`Takes`),
hence the insertions made by the scheduler are those of `shared_only_if_partial`. Missing, for a job that shares: a window in which no resource
is usable throughout (C11). -/
theorem search_takes_partial (ss : SlotSet) (job : Job) (a z : Slot) (A R : ProcSet) (w : Int) (hwf : WF ss) (ha : a ∈ ss.slots) (hz : z ∈ ss.slots)
    (hle : a.b ≤ z.b) (hs : job.startTime = a.b) (hw : 1 ≤ w) (hend : a.b + w - 1 ≤ z.e) (h : available ss job a.id z.id = some A) (hR : R ⊆ A)
    (hcommon : job.ts = true ∨ job.ph = 2 → ∃ y, ∀ s ∈ ss.slots, a.b ≤ s.b → s.e ≤ z.e → y ∈ shareable job s) : Takes ss job w R := by
  have hall : ∀ s ∈ ss.slots, a.b ≤ s.b → s.e ≤ z.e → ∀ k ∈ R, MayUse job s k := by
    intro s hs' h1 h2 k hk
    unfold available at h
    by_cases hsh : job.ts = true ∨ job.ph = 2
    · rw [if_pos hsh] at h
      exact (sharing_exact_partial ss job a z A hwf ha hz hle h (hcommon hsh)).2 k (hR hk) s hs' h1 h2
    · rw [if_neg hsh] at h
      obtain ⟨c, hc⟩ := hwf
      obtain ⟨l, t, i, r, e, ez, hseg⟩ := segment hc ha hz hle
      obtain ⟨A', h3, h4⟩ := intersec_seg hc e ez
      rw [h, Option.some.injEq] at h3
      subst h3
      exact Or.inl ((h4 k).1 (hR hk) s ((hseg s hs').1 ⟨h1, h2⟩))
  intro t f1 f2 s hs' b1 b2 k hk
  have na := slot_nonempty hwf ha
  have nz := slot_nonempty hwf hz
  rw [hs] at f1 f2
  have := slot_within hwf ha hz hs' (u := t) f1 (by omega) b1 b2 na.1 nz.1
  exact hall s hs' this.1 this.2 k hk

/-- A sufficient condition that can be computed. -/
theorem takes_of_shareable {ss : SlotSet} {j : Job} {w : Int} {R : ProcSet}
    (h : ∀ s ∈ ss.slots, s.b < j.startTime + w → j.startTime ≤ s.e → R ⊆ shareable j s) : Takes ss j w R := by
  intro t f1 f2 s hs b1 b2 k hk
  exact shareable_mayUse j s k (h s hs (by omega) (by omega) hk)

/-! ### What the timeline does not know -/

/-- **C108, VIOLATION.** The documented type `timesharing=user,*` ("share with the jobs of the same user") is recorded under the word `user`. -/
theorem user_word : (JobTypes.addType JobTypes.Info.empty (txt "timesharing=user,*")).map (fun i => i.ts) = some (some (txt "user", txt "*")) := by
  decide

/-- **C108, VIOLATION.** Two jobs of the same user with the type `timesharing=user,*` never share a resource: whatever job `a` holds, job `b` may not use it (unless the login of
its user is the word `user`). -/
theorem same_user_violated (ctx : Ctx) (ss0 ss : SlotSet) (a b : Job) (hwf : WF ss0) (hf : Fresh ss0) (h : History ctx ss0 [a] ss) (ha : a.ts = true ∧ a.tsUser = "user" ∧ a.tsName = "*")
    (hp : b.ph = 0) (hu : b.user = a.user) (hn : a.user ≠ "user") (t : Int) (k : Nat) (ho : Occupies a t k) (s : Slot) (hs : s ∈ ss.slots) (h1 : s.b ≤ t) (h2 : t ≤ s.e) : ¬ MayUse b s k := by
  obtain ⟨i1, i2, i3⟩ := inv_history hwf hf h
  obtain ⟨c, hc⟩ := id i1
  have hpay : ss.pay t = some s.pay := by
    have := (pay_isSome_iff i1 t).2 (by
      have := (tiled_bounds _ _ _ hc.tiled).2 s (hc.mem_iff.1 hs)
      omega)
    obtain ⟨p, hp⟩ := Option.isSome_iff_exists.1 this
    obtain ⟨s2, hs2, c1, c2, rfl⟩ := pay_slot hp
    rw [slot_unique i1 hs hs2 t h1 h2 c1 c2]
    exact hp
  have i := i3 t _ hpay
  rintro (h3 | ⟨_, u, d, n, X, h3, h4, h5, h6, h7⟩ | ⟨h3, _⟩)
  · exact i.free k h3 a (by simp) ho
  · obtain ⟨a', ha', _, _, h8, _⟩ := i.tsOne k u n ⟨d, X, h4, h6, h7⟩
    rw [List.mem_singleton.1 ha', ha.2.1] at h8
    rcases h3 with h3 | h3
    · rw [← h8] at h3; exact absurd h3 (by decide)
    · rw [← h8, hu] at h3; exact hn h3.symm
  · rw [hp] at h3; cases h3

/-- Alice's job, which she shares with everybody. -/
def alice : Job := { id := 1, startTime := 10, walltime := some 10, resSet := some {1, 2, 3, 4}, ts := true, tsUser := "*", tsName := "*", user := "alice" }

/-- Bob's job, to be shared with nobody but bob. -/
def bob : Job := { wjob 2 4 20 with ts := true, tsUser := "bob", tsName := "*", user := "bob" }

/-- **C108, VIOLATION.** Only what the first job asked counts: bob, who shares with himself only, is put at date 0 on the nodes that alice holds from date 10. -/
theorem one_sided_violated : ((ss0.splitJobs ctx0 [alice] true).bind (fun ss => assign ctx0 ss bob hy4 (-1))).map (fun x => (x.2.2.startTime, x.2.2.walltime, x.2.2.resSet)) =
      some (0, some 20, some {1, 2, 3, 4}) ∧ ¬ Covers bob alice := by
  refine ⟨by decide, ?_⟩
  rintro ⟨h | h, _⟩ <;> exact absurd h (by decide)

/-- A placeholder of two nodes. -/
def room : Job := { id := 2, startTime := 10, walltime := some 20, resSet := some {1, 2}, ph := 1, phName := "room" }

/-- A job allowed in the placeholder, that was submitted before it and begins with it. -/
def guest : Job := { id := 1, startTime := 10, walltime := some 15, resSet := some {1, 2}, ph := 2, phName := "room" }

/-- Another job allowed in the placeholder. -/
def guest2 : Job := { wjob 3 2 12 with ph := 2, phName := "room" }

/-- The fresh timeline of the examples, with only two nodes. -/
def ssTwo : SlotSet := SlotSet.ofItvs ctx0 {1, 2} 0

/-- **C108, VIOLATION.** Inserted in the order of their placement, the placeholder then the guest, the second guest waits for the end of the first (date 25). At the next round the jobs are
inserted in the order of their dates and numbers, the guest then the placeholder, all the resources of the placeholder are proposed again: the second guest gets for `[0, 12)` the two nodes that the first
holds during `[10, 25)`. -/
theorem placeholder_violated :
    ((ssTwo.splitJobs ctx0 [room] true).bind (fun ss => (ss.splitJobs ctx0 [guest] true).bind (fun ss => assign ctx0 ss guest2 hy4 (-1)))).map
      (fun x => (x.2.2.startTime, x.2.2.walltime, x.2.2.resSet)) = some (25, some 12, some {1, 2}) ∧
    ((ssTwo.splitJobs ctx0 [guest, room] true).bind (fun ss => assign ctx0 ss guest2 hy4 (-1))).map
      (fun x => (x.2.2.startTime, x.2.2.walltime, x.2.2.resSet)) = some (0, some 12, some {1, 2}) ∧
    Occupies guest 10 1 ∧ ¬ MayShare guest guest2 := by
  refine ⟨by decide, by decide, ⟨15, {1, 2}, rfl, rfl, by decide, by decide, by decide⟩, ?_⟩
  rintro (h | h | h)
  · exact absurd h.1 (by decide)
  · exact absurd h.1 (by decide)
  · exact absurd h.2.1 (by decide)

/-- A second placeholder of the same name, on other nodes. -/
def room2 : Job := { id := 4, startTime := 10, walltime := some 20, resSet := some {3, 4}, ph := 1, phName := "room" }

/-- **C108, VIOLATION.** Two placeholders of the same name: the second replaces the first, whose resources can be used by nobody. -/
theorem same_name_violated (ctx : Ctx) (j : Job) (w : Int) (R : ProcSet) (p : Pay) (hj : j.ph = 1) (k : Nat) (hk : k ∉ R) : ¬ InPh (effect ctx j w R true p) j.phName k := by
  intro h
  rcases inPh_effect h with h | h
  · exact hk h.2.2
  · exact h.2.1 hj rfl

/-! ### The hypotheses are met -/

/-- A guest that begins with the placeholder. -/
def guestA : Job := { id := 5, startTime := 12, walltime := some 8, resSet := some {1}, ph := 2, phName := "room" }

/-- A job of carol, to share with everybody. -/
def carol : Job := { id := 6, startTime := 15, walltime := some 30, resSet := some {3, 4}, ts := true, tsUser := "*", tsName := "*", user := "carol" }

/-- A job of dave, put with the one of carol. -/
def dave : Job := { id := 7, startTime := 20, walltime := some 10, resSet := some {4}, ts := true, tsUser := "*", tsName := "*", user := "dave" }

/-- A placeholder with a guest, and two timesharing jobs. -/
theorem history_example : ∃ ss, History ctx0 ss0 [room, guestA, carol, dave] ss ∧ Occupies room 13 1 ∧ Occupies guestA 13 1 ∧ Occupies carol 25 4 ∧ Occupies dave 25 4 := by
  have hfresh : Fresh ss0 := by
    intro s hs
    rw [List.mem_singleton.1 hs]
    exact ⟨rfl, rfl⟩
  have step : ∀ (js : List Job) (ss : SlotSet) (j : Job) (w : Int) (R : ProcSet), History ctx0 ss0 js ss → j.walltime = some w → j.resSet = some R →
      decide (1 ≤ w ∧ ss.begin_ < j.startTime + w ∧ j.startTime ≤ ss.end_ ∧ (j.ts = true → j.ph = 0)) = true →
      ss.slots.all (fun s => decide (s.b < j.startTime + w → j.startTime ≤ s.e → R ⊆ shareable j s)) = true →
      ∃ ss', ss.splitJobs ctx0 [j] true = some ss' ∧ History ctx0 ss0 (js ++ [j]) ss' := by
    intro js ss j w R h h1 h2 h3 h4
    have h3 := of_decide_eq_true h3
    obtain ⟨i1, _, _⟩ := inv_history ss0_wf hfresh h
    obtain ⟨ss', _, h5, _⟩ := insert_pointwise ctx0 ss j w R true i1 h3.1 h1 h2 (by omega) h3.2.2.1
    refine ⟨ss', h5, History.insert h h1 h2 h3.1 h3.2.1 h3.2.2.1 h3.2.2.2 (takes_of_shareable ?_) h5⟩
    intro s hs
    exact of_decide_eq_true (List.all_eq_true.1 h4 s hs)
  obtain ⟨s1, e1, h1⟩ := step [] ss0 room 20 {1, 2} History.start rfl rfl (by decide) (by decide)
  have c1 : (ss0.splitJobs ctx0 [room] true).map (fun s => decide (1 ≤ (8 : Int) ∧ s.begin_ < guestA.startTime + 8 ∧ guestA.startTime ≤ s.end_ ∧ (guestA.ts = true → guestA.ph = 0)) &&
      s.slots.all (fun s => decide (s.b < guestA.startTime + 8 → guestA.startTime ≤ s.e → {1} ⊆ shareable guestA s))) = some true := by decide
  rw [e1, Option.map_some, Option.some.injEq, Bool.and_eq_true] at c1
  obtain ⟨s2, e2, h2⟩ := step _ s1 guestA 8 {1} h1 rfl rfl c1.1 c1.2
  have c2 : ((ss0.splitJobs ctx0 [room] true).bind (fun s => s.splitJobs ctx0 [guestA] true)).map (fun s => decide (1 ≤ (30 : Int) ∧ s.begin_ < carol.startTime + 30 ∧ carol.startTime ≤ s.end_ ∧ (carol.ts = true → carol.ph = 0)) &&
      s.slots.all (fun s => decide (s.b < carol.startTime + 30 → carol.startTime ≤ s.e → {3, 4} ⊆ shareable carol s))) = some true := by decide
  rw [e1, Option.bind_some, e2, Option.map_some, Option.some.injEq, Bool.and_eq_true] at c2
  obtain ⟨s3, e3, h3⟩ := step _ s2 carol 30 {3, 4} h2 rfl rfl c2.1 c2.2
  have c3 : ((ss0.splitJobs ctx0 [room] true).bind (fun s => (s.splitJobs ctx0 [guestA] true).bind (fun s => s.splitJobs ctx0 [carol] true))).map (fun s => decide (1 ≤ (10 : Int) ∧ s.begin_ < dave.startTime + 10 ∧ dave.startTime ≤ s.end_ ∧ (dave.ts = true → dave.ph = 0)) &&
      s.slots.all (fun s => decide (s.b < dave.startTime + 10 → dave.startTime ≤ s.e → {4} ⊆ shareable dave s))) = some true := by decide
  rw [e1, Option.bind_some, e2, Option.bind_some, e3, Option.map_some, Option.some.injEq, Bool.and_eq_true] at c3
  obtain ⟨s4, e4, h4⟩ := step _ s3 dave 10 {4} h3 rfl rfl c3.1 c3.2
  exact ⟨s4, h4, ⟨20, {1, 2}, rfl, rfl, by decide, by decide, by decide⟩, ⟨8, {1}, rfl, rfl, by decide, by decide, by decide⟩,
    ⟨30, {3, 4}, rfl, rfl, by decide, by decide, by decide⟩, ⟨10, {4}, rfl, rfl, by decide, by decide, by decide⟩⟩

end Oar.Kao.Sharing
