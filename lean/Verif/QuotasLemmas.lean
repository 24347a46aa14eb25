import Verif.QuotasSpec

/-!
# Lemmas on the quota counters
-/

namespace Oar.Quotas

theorem lookup_addTo (k : Key) (d : Cnt) : ∀ (c : Counters) (k' : Key),
    (addTo k d c).lookup k' = if k' = k then some (value c k + d) else c.lookup k'
  | [], k' => by
    by_cases h : k' = k
    · subst h; simp [addTo, value]
    · simp [addTo, h, List.lookup_cons, beq_eq_false_iff_ne.2 h]
  | (k0, c0) :: l, k' => by
    unfold addTo
    by_cases h0 : k0 = k
    · subst h0
      rw [if_pos rfl]
      by_cases h : k' = k0
      · subst h; simp [value]; rfl
      · simp [List.lookup_cons, beq_eq_false_iff_ne.2 h, h]
    · rw [if_neg h0]
      have ih := lookup_addTo k d l k'
      by_cases h : k' = k0
      · subst h; simp [h0]
      · rw [List.lookup_cons, beq_eq_false_iff_ne.2 h]
        dsimp only
        rw [ih, List.lookup_cons (k := k0), beq_eq_false_iff_ne.2 h]
        have : value ((k0, c0) :: l) k = value l k := by
          simp [value, List.lookup_cons, beq_eq_false_iff_ne.2 (Ne.symm h0)]
        rw [this]

theorem value_addTo (k : Key) (d : Cnt) (c : Counters) (k' : Key) :
    value (addTo k d c) k' = if k' = k then value c k' + d else value c k' := by
  unfold value
  rw [lookup_addTo]
  by_cases h : k' = k
  · subst h; simp [value]
  · simp [h]

/-- Adding the same quantity to each key of a list. -/
theorem value_addAll (d : Cnt) (k' : Key) : ∀ (ks : List Key) (c : Counters),
    value (ks.foldl (fun c k => addTo k d c) c) k' = value c k' + (ks.count k') • d
  | [], c => by simp
  | k :: ks, c => by
    rw [List.foldl_cons, value_addAll d k' ks, value_addTo, List.count_cons]
    by_cases h : k' = k
    · subst h
      simp only [if_true, beq_self_eq_true, add_nsmul, one_nsmul]
      rw [add_assoc, add_comm d]
    · have : (k == k') = false := beq_eq_false_iff_ne.2 (Ne.symm h)
      simp [h, this]

/-- All the keys incremented for a job. -/
def allKeys (jobTypes : List String) (j : QJob) : List Key :=
  jobTypes.flatMap (fun t => if t = "*" ∨ t ∈ j.types then keys8 j t else [])

theorem update_eq (jobTypes : List String) (j : QJob) (nb dur : Int) (c : Counters) :
    update jobTypes j nb dur c = (allKeys jobTypes j).foldl (fun c k => addTo k ⟨nb, 1, nb * dur⟩ c) c := by
  unfold update allKeys
  induction jobTypes generalizing c with
  | nil => rfl
  | cons t ts ih =>
    rw [List.foldl_cons, List.flatMap_cons, List.foldl_append, ih]
    by_cases h : t = "*" ∨ t ∈ j.types
    · simp only [if_pos h]
    · simp only [if_neg h, List.foldl_nil]

theorem value_update (jobTypes : List String) (j : QJob) (nb dur : Int) (c : Counters) (k : Key) :
    value (update jobTypes j nb dur c) k = value c k + ((allKeys jobTypes j).count k) • (⟨nb, 1, nb * dur⟩ : Cnt) := by
  rw [update_eq, value_addAll]

theorem mem_allKeys {jobTypes : List String} {j : QJob} {k : Key} : k ∈ allKeys jobTypes j ↔ InClass jobTypes j k := by
  unfold allKeys InClass
  rw [List.mem_flatMap]
  constructor
  · rintro ⟨t, ht, hk⟩
    by_cases h : t = "*" ∨ t ∈ j.types
    · rw [if_pos h] at hk
      simp only [keys8, List.mem_cons, List.not_mem_nil, or_false] at hk
      rcases hk with rfl | rfl | rfl | rfl | rfl | rfl | rfl | rfl <;>
        exact ⟨by tauto, by tauto, by tauto, ht, h⟩
    · rw [if_neg h] at hk; simp at hk
  · rintro ⟨h1, h2, h3, h4, h5⟩
    refine ⟨k.type, h4, ?_⟩
    rw [if_pos h5]
    obtain ⟨q, p, t, u⟩ := k
    dsimp only at *
    rcases h1 with rfl | rfl <;> rcases h2 with rfl | rfl <;> rcases h3 with rfl | rfl <;> simp [keys8]

theorem keys8_nodup {j : QJob} (h : Proper j) (t : String) : (keys8 j t).Nodup := by
  obtain ⟨h1, h2, h3⟩ := h
  simp only [keys8, List.nodup_cons, List.mem_cons, Key.mk.injEq, List.not_mem_nil, or_false, not_false_eq_true,
    List.nodup_nil, and_true]
  refine ⟨?_, ?_, ?_, ?_, ?_, ?_, ?_⟩ <;> simp_all [Ne.symm h1, Ne.symm h2, Ne.symm h3]

theorem allKeys_nodup {jobTypes : List String} {j : QJob} (h : Proper j) (hn : jobTypes.Nodup) :
    (allKeys jobTypes j).Nodup := by
  unfold allKeys
  rw [List.nodup_flatMap]
  refine ⟨fun t _ => ?_, ?_⟩
  · split
    · exact keys8_nodup h t
    · exact List.nodup_nil
  · refine hn.imp ?_
    intro a b hab k ha hb
    have hty : ∀ t, k ∈ (if t = "*" ∨ t ∈ j.types then keys8 j t else []) → k.type = t := by
      intro t hk
      split at hk
      · simp only [keys8, List.mem_cons, List.not_mem_nil, or_false] at hk
        rcases hk with rfl | rfl | rfl | rfl | rfl | rfl | rfl | rfl <;> rfl
      · simp at hk
    exact hab ((hty a ha).symm.trans (hty b hb))

theorem value_update_exact {jobTypes : List String} {j : QJob} (h : Proper j) (hn : jobTypes.Nodup) (nb dur : Int)
    (c : Counters) (k : Key) :
    value (update jobTypes j nb dur c) k = value c k + if InClass jobTypes j k then ⟨nb, 1, nb * dur⟩ else 0 := by
  rw [value_update, List.Nodup.count (allKeys_nodup h hn)]
  by_cases hk : InClass jobTypes j k
  · rw [if_pos (mem_allKeys.2 hk), if_pos hk, one_nsmul]
  · rw [if_neg (fun h' => hk (mem_allKeys.1 h')), if_neg hk, zero_nsmul]

theorem nsmul_res (n : Nat) (d : Cnt) : (n • d).res = n * d.res := by
  induction n with
  | zero => simp
  | succ n ih => rw [add_nsmul, one_nsmul]; simp [ih, Int.add_mul]
theorem nsmul_jobs (n : Nat) (d : Cnt) : (n • d).jobs = n * d.jobs := by
  induction n with
  | zero => simp
  | succ n ih => rw [add_nsmul, one_nsmul]; simp [ih, Int.add_mul]
theorem nsmul_time (n : Nat) (d : Cnt) : (n • d).time = n * d.time := by
  induction n with
  | zero => simp
  | succ n ih => rw [add_nsmul, one_nsmul]; simp [ih, Int.add_mul]

/-! ## keys of the counters -/

theorem keys_addTo (k : Key) (d : Cnt) : ∀ (c : Counters), (c.map Prod.fst).Nodup → ((addTo k d c).map Prod.fst).Nodup ∧
    ∀ k', k' ∈ (addTo k d c).map Prod.fst ↔ k' = k ∨ k' ∈ c.map Prod.fst
  | [], _ => by simp [addTo]
  | (k0, c0) :: l, h => by
    rw [List.map_cons, List.nodup_cons] at h
    unfold addTo
    by_cases h0 : k0 = k
    · subst h0
      rw [if_pos rfl]
      refine ⟨by rw [List.map_cons, List.nodup_cons]; exact h, ?_⟩
      intro k'; simp
    · rw [if_neg h0]
      obtain ⟨h1, h2⟩ := keys_addTo k d l h.2
      refine ⟨?_, ?_⟩
      · rw [List.map_cons, List.nodup_cons]
        refine ⟨?_, h1⟩
        rw [h2]; push Not; exact ⟨h0, h.1⟩
      · intro k'
        rw [List.map_cons, List.mem_cons, h2, List.map_cons, List.mem_cons]
        tauto

/-- Keys of a counter dictionary are distinct. -/
def Keyed (c : Counters) : Prop := (c.map Prod.fst).Nodup

theorem keyed_update (jobTypes : List String) (j : QJob) (nb dur : Int) (c : Counters) (h : Keyed c) :
    Keyed (update jobTypes j nb dur c) := by
  rw [update_eq]
  generalize allKeys jobTypes j = ks
  induction ks generalizing c with
  | nil => exact h
  | cons k ks ih => exact ih _ (keys_addTo k _ c h).1

/-! ## `combine` -/

theorem lookup_combineKey (k : Key) (v : Cnt) : ∀ (c : Counters) (k' : Key),
    (combineKey k v c).lookup k' = if k' = k then
      some ⟨max (value c k).res v.res, max (value c k).jobs v.jobs, (value c k).time + v.time⟩ else c.lookup k'
  | [], k' => by
    by_cases h : k' = k
    · subst h; simp [combineKey, value]
    · simp [combineKey, h, List.lookup_cons, beq_eq_false_iff_ne.2 h]
  | (k0, c0) :: l, k' => by
    unfold combineKey
    by_cases h0 : k0 = k
    · subst h0
      rw [if_pos rfl]
      by_cases h : k' = k0
      · subst h; simp [value]
      · simp [List.lookup_cons, beq_eq_false_iff_ne.2 h, h]
    · rw [if_neg h0]
      have ih := lookup_combineKey k v l k'
      by_cases h : k' = k0
      · subst h; simp [h0]
      · rw [List.lookup_cons, beq_eq_false_iff_ne.2 h]
        dsimp only
        rw [ih, List.lookup_cons (k := k0), beq_eq_false_iff_ne.2 h]
        have : value ((k0, c0) :: l) k = value l k := by
          simp [value, List.lookup_cons, beq_eq_false_iff_ne.2 (Ne.symm h0)]
        rw [this]

theorem value_combineKey (k : Key) (v : Cnt) (c : Counters) (k' : Key) :
    value (combineKey k v c) k' = if k' = k then
      ⟨max (value c k').res v.res, max (value c k').jobs v.jobs, (value c k').time + v.time⟩ else value c k' := by
  unfold value
  rw [lookup_combineKey]
  by_cases h : k' = k
  · subst h; simp [value]
  · simp [h]

theorem lookup_none_of {c : Counters} {k : Key} (h : k ∉ c.map Prod.fst) : c.lookup k = none := by
  induction c with
  | nil => rfl
  | cons a l ih =>
    obtain ⟨k0, c0⟩ := a
    simp only [List.map_cons, List.mem_cons, not_or] at h
    rw [List.lookup_cons, beq_eq_false_iff_ne.2 h.1]
    exact ih h.2

/-- All the values of a counter dictionary are non-negative. -/
def NonNeg (c : Counters) : Prop := ∀ k, 0 ≤ (value c k).res ∧ 0 ≤ (value c k).jobs ∧ 0 ≤ (value c k).time

theorem value_combine : ∀ (o c : Counters) (k : Key), Keyed o →
    value (combine o c) k = if k ∈ o.map Prod.fst then
      ⟨max (value c k).res (value o k).res, max (value c k).jobs (value o k).jobs, (value c k).time + (value o k).time⟩
      else value c k
  | [], c, k, _ => by simp [combine]
  | (k0, v) :: o, c, k, h => by
    unfold Keyed at h
    rw [List.map_cons, List.nodup_cons] at h
    have ih := value_combine o (combineKey k0 v c) k h.2
    have e : combine ((k0, v) :: o) c = combine o (combineKey k0 v c) := rfl
    rw [e, ih]
    by_cases hk : k = k0
    · subst hk
      rw [if_neg h.1, value_combineKey, if_pos rfl, if_pos (by simp)]
      simp [value]
    · have hv : value ((k0, v) :: o) k = value o k := by
        simp [value, List.lookup_cons, beq_eq_false_iff_ne.2 hk]
      rw [value_combineKey, if_neg hk, hv]
      by_cases hm : k ∈ o.map Prod.fst
      · rw [if_pos hm, if_pos (by rw [List.map_cons, List.mem_cons]; exact Or.inr hm)]
      · rw [if_neg hm, if_neg (by rw [List.map_cons, List.mem_cons]; push Not; exact ⟨hk, hm⟩)]

theorem value_combine_nonneg {o c : Counters} (hk : Keyed o) (hc : NonNeg c) (k : Key) :
    value (combine o c) k =
      ⟨max (value c k).res (value o k).res, max (value c k).jobs (value o k).jobs, (value c k).time + (value o k).time⟩ := by
  rw [value_combine o c k hk]
  split
  · rfl
  · rename_i h
    have h0 : value o k = 0 := by simp [value, lookup_none_of h]
    rw [h0]
    have := hc k
    refine Cnt.ext' ?_ ?_ ?_ <;> simp <;> omega

theorem nonneg_combine {o c : Counters} (hk : Keyed o) (ho : NonNeg o) (hc : NonNeg c) : NonNeg (combine o c) := by
  intro k
  rw [value_combine_nonneg hk hc]
  have := ho k; have := hc k
  refine ⟨?_, ?_, ?_⟩ <;> simp <;> omega

theorem keyed_combineKey (k : Key) (v : Cnt) : ∀ (c : Counters), Keyed c → Keyed (combineKey k v c) ∧
    ∀ k', k' ∈ (combineKey k v c).map Prod.fst ↔ k' = k ∨ k' ∈ c.map Prod.fst
  | [], _ => by simp [combineKey, Keyed]
  | (k0, c0) :: l, h => by
    unfold Keyed at *
    rw [List.map_cons, List.nodup_cons] at h
    unfold combineKey
    by_cases h0 : k0 = k
    · subst h0
      rw [if_pos rfl]
      refine ⟨by rw [List.map_cons, List.nodup_cons]; exact h, ?_⟩
      intro k'; simp
    · rw [if_neg h0]
      obtain ⟨h1, h2⟩ := keyed_combineKey k v l h.2
      refine ⟨?_, ?_⟩
      · rw [List.map_cons, List.nodup_cons]
        refine ⟨?_, h1⟩
        rw [h2]; push Not; exact ⟨h0, h.1⟩
      · intro k'
        rw [List.map_cons, List.mem_cons, h2, List.map_cons, List.mem_cons]
        tauto

theorem nonneg_update (jobTypes : List String) (j : QJob) (nb dur : Int) (c : Counters) (h : NonNeg c) (h1 : 0 ≤ nb)
    (h2 : 0 ≤ dur) : NonNeg (update jobTypes j nb dur c) := by
  intro k
  rw [value_update]
  have := h k
  simp only [add_res, add_jobs, add_time, nsmul_res, nsmul_jobs, nsmul_time]
  have h3 : 0 ≤ nb * dur := Int.mul_nonneg h1 h2
  have n0 : (0 : Int) ≤ ((allKeys jobTypes j).count k : Int) := by omega
  have a1 := Int.mul_nonneg n0 h1
  have a2 := Int.mul_nonneg n0 h3
  refine ⟨?_, ?_, ?_⟩ <;> omega

theorem nonneg_nil : NonNeg [] := by
  intro k; simp [value]

/-! ## the groups of `check_slots_quotas` -/

/-- The rules used for the group `i`: those of the first slot of the window having this rules id. -/
def rulesOf (env : Env) (slots : List SlotQuotas) (i : Int) : Rules :=
  match slots.find? (fun q => q.rulesId = i) with
  | none => []
  | some q => if q.rules.isEmpty then env.defaultRules else q.rules

/-- The state of the dictionary of groups after the slots `done`. -/
structure GroupsOk (env : Env) (done : List SlotQuotas) (g : Groups) : Prop where
  has : ∀ q ∈ done, ∃ x ∈ g, x.1 = q.rulesId
  rules : ∀ x ∈ g, x.2.1 = rulesOf env done x.1
  known : ∀ x ∈ g, ∃ q ∈ done, q.rulesId = x.1
  ids : (g.map Prod.fst).Nodup
  res : ∀ x ∈ g, ∀ q ∈ done, q.rulesId = x.1 → ∀ k, (value q.counters k).res ≤ (value x.2.2 k).res
  jobs : ∀ x ∈ g, ∀ q ∈ done, q.rulesId = x.1 → ∀ k, (value q.counters k).jobs ≤ (value x.2.2 k).jobs
  time : ∀ x ∈ g, ∀ k, (value x.2.2 k).time =
    ((done.filter (fun q => q.rulesId = x.1)).map (fun q => (value q.counters k).time)).sum
  nonneg : ∀ x ∈ g, NonNeg x.2.2

theorem groupStep_mem (env : Env) (q : SlotQuotas) : ∀ (g : Groups), (g.map Prod.fst).Nodup →
    (∀ x ∈ groupStep env q g, (x ∈ g ∧ x.1 ≠ q.rulesId) ∨
      (∃ y ∈ g, y.1 = q.rulesId ∧ x = (y.1, y.2.1, combine q.counters y.2.2)) ∨
      ((∀ y ∈ g, y.1 ≠ q.rulesId) ∧
        x = (q.rulesId, if q.rules.isEmpty then env.defaultRules else q.rules, combine q.counters []))) ∧
    (∀ y ∈ g, ∃ x ∈ groupStep env q g, x.1 = y.1) ∧ (∃ x ∈ groupStep env q g, x.1 = q.rulesId) ∧
    ((groupStep env q g).map Prod.fst).Nodup ∧
    (∀ i ∈ (groupStep env q g).map Prod.fst, i = q.rulesId ∨ i ∈ g.map Prod.fst)
  | [], _ => by
    refine ⟨?_, by simp, ?_, by simp [groupStep], by simp [groupStep]⟩
    · intro x hx
      simp only [groupStep, List.mem_cons, List.not_mem_nil, or_false] at hx
      exact Or.inr (Or.inr ⟨by simp, hx⟩)
    · exact ⟨_, by simp [groupStep]; rfl, rfl⟩
  | (i, r, c) :: gs, hn => by
    rw [List.map_cons, List.nodup_cons] at hn
    unfold groupStep
    by_cases h : i = q.rulesId
    · rw [if_pos h]
      refine ⟨?_, ?_, ⟨(i, r, combine q.counters c), by simp, h⟩, ?_, ?_⟩
      · intro x hx
        rcases List.mem_cons.1 hx with rfl | hx
        · exact Or.inr (Or.inl ⟨(i, r, c), by simp, h, rfl⟩)
        · refine Or.inl ⟨List.mem_cons_of_mem _ hx, ?_⟩
          intro e
          have h2 : x.1 ∈ gs.map Prod.fst := List.mem_map_of_mem hx
          exact hn.1 (by rw [e, ← h] at h2; exact h2)
      · intro y hy
        rcases List.mem_cons.1 hy with rfl | hy
        · exact ⟨_, List.mem_cons_self, rfl⟩
        · exact ⟨y, List.mem_cons_of_mem _ hy, rfl⟩
      · rw [List.map_cons, List.nodup_cons]; exact hn
      · intro i' hi'; exact Or.inr hi'
    · rw [if_neg h]
      obtain ⟨a1, a2, a3, a4, a5⟩ := groupStep_mem env q gs hn.2
      refine ⟨?_, ?_, ?_, ?_, ?_⟩
      · intro x hx
        rcases List.mem_cons.1 hx with rfl | hx
        · exact Or.inl ⟨by simp, h⟩
        · rcases a1 x hx with ⟨b1, b2⟩ | ⟨y, b1, b2, b3⟩ | ⟨b1, b2⟩
          · exact Or.inl ⟨List.mem_cons_of_mem _ b1, b2⟩
          · exact Or.inr (Or.inl ⟨y, List.mem_cons_of_mem _ b1, b2, b3⟩)
          · refine Or.inr (Or.inr ⟨?_, b2⟩)
            intro y hy
            rcases List.mem_cons.1 hy with rfl | hy
            · exact h
            · exact b1 y hy
      · intro y hy
        rcases List.mem_cons.1 hy with rfl | hy
        · exact ⟨_, List.mem_cons_self, rfl⟩
        · obtain ⟨x, b1, b2⟩ := a2 y hy
          exact ⟨x, List.mem_cons_of_mem _ b1, b2⟩
      · obtain ⟨x, b1, b2⟩ := a3
        exact ⟨x, List.mem_cons_of_mem _ b1, b2⟩
      · rw [List.map_cons, List.nodup_cons]
        refine ⟨?_, a4⟩
        intro hi
        rcases a5 i hi with e | e
        · exact h e
        · exact hn.1 e
      · intro i' hi'
        rw [List.map_cons, List.mem_cons] at hi'
        rcases hi' with rfl | hi'
        · right; simp
        · rcases a5 i' hi' with e | e
          · exact Or.inl e
          · right; rw [List.map_cons, List.mem_cons]; exact Or.inr e

theorem rulesOf_append (env : Env) (done : List SlotQuotas) (q : SlotQuotas) (i : Int) (h : ∃ q' ∈ done, q'.rulesId = i) :
    rulesOf env (done ++ [q]) i = rulesOf env done i := by
  unfold rulesOf
  rw [List.find?_append]
  obtain ⟨q', h1, h2⟩ := h
  cases hf : done.find? (fun q => decide (q.rulesId = i)) with
  | none => exact absurd h2 (by simpa using List.find?_eq_none.1 hf q' h1)
  | some y => rfl

theorem rulesOf_new (env : Env) (done : List SlotQuotas) (q : SlotQuotas) (h : ∀ q' ∈ done, q'.rulesId ≠ q.rulesId) :
    rulesOf env (done ++ [q]) q.rulesId = if q.rules.isEmpty then env.defaultRules else q.rules := by
  unfold rulesOf
  rw [List.find?_append]
  have : done.find? (fun q' => decide (q'.rulesId = q.rulesId)) = none := by
    rw [List.find?_eq_none]
    intro x hx
    simpa using h x hx
  rw [this]
  simp

theorem groupStep_ok {env : Env} {done : List SlotQuotas} {g : Groups} {q : SlotQuotas} (h : GroupsOk env done g)
    (hk : Keyed q.counters) (hn : NonNeg q.counters) : GroupsOk env (done ++ [q]) (groupStep env q g) := by
  obtain ⟨a1, a2, a3, a4, a5⟩ := groupStep_mem env q g h.ids
  have hidsame : ∀ x ∈ g, ∀ y ∈ g, x.1 = y.1 → x = y := by
    intro x hx y hy e
    exact List.inj_on_of_nodup_map h.ids hx hy e
  constructor
  · intro q' hq'
    rcases List.mem_append.1 hq' with hq' | hq'
    · obtain ⟨y, hy, e⟩ := h.has q' hq'
      obtain ⟨x, hx, e2⟩ := a2 y hy
      exact ⟨x, hx, e2.trans e⟩
    · simp only [List.mem_cons, List.not_mem_nil, or_false] at hq'
      subst hq'; exact a3
  · intro x hx
    rcases a1 x hx with ⟨b1, b2⟩ | ⟨y, b1, b2, rfl⟩ | ⟨b1, rfl⟩
    · rw [rulesOf_append _ _ _ _ (h.known x b1)]; exact h.rules x b1
    · rw [rulesOf_append _ _ _ _ (h.known y b1)]; exact h.rules y b1
    · refine (rulesOf_new env done q ?_).symm
      intro q' hq' e
      obtain ⟨y, hy, e2⟩ := h.has q' hq'
      exact b1 y hy (e2.trans e)
  · intro x hx
    rcases a1 x hx with ⟨b1, b2⟩ | ⟨y, b1, b2, rfl⟩ | ⟨b1, rfl⟩
    · obtain ⟨q', c1, c2⟩ := h.known x b1
      exact ⟨q', by simp [c1], c2⟩
    · exact ⟨q, by simp, b2.symm⟩
    · exact ⟨q, by simp, rfl⟩
  · exact a4
  · intro x hx q' hq' e k
    rcases a1 x hx with ⟨b1, b2⟩ | ⟨y, b1, b2, rfl⟩ | ⟨b1, rfl⟩
    · rcases List.mem_append.1 hq' with hq' | hq'
      · exact h.res x b1 q' hq' e k
      · simp only [List.mem_cons, List.not_mem_nil, or_false] at hq'
        subst hq'; exact absurd e.symm b2
    · dsimp only at e ⊢
      rw [value_combine_nonneg hk (h.nonneg y b1)]
      rcases List.mem_append.1 hq' with hq' | hq'
      · have := h.res y b1 q' hq' e k
        simp only; omega
      · simp only [List.mem_cons, List.not_mem_nil, or_false] at hq'
        subst hq'; simp only; omega
    · dsimp only at e ⊢
      rw [value_combine_nonneg hk nonneg_nil]
      rcases List.mem_append.1 hq' with hq' | hq'
      · obtain ⟨y, hy, e2⟩ := h.has q' hq'
        exact absurd (e2.trans e) (b1 y hy)
      · simp only [List.mem_cons, List.not_mem_nil, or_false] at hq'
        subst hq'; simp only; omega
  · intro x hx q' hq' e k
    rcases a1 x hx with ⟨b1, b2⟩ | ⟨y, b1, b2, rfl⟩ | ⟨b1, rfl⟩
    · rcases List.mem_append.1 hq' with hq' | hq'
      · exact h.jobs x b1 q' hq' e k
      · simp only [List.mem_cons, List.not_mem_nil, or_false] at hq'
        subst hq'; exact absurd e.symm b2
    · dsimp only at e ⊢
      rw [value_combine_nonneg hk (h.nonneg y b1)]
      rcases List.mem_append.1 hq' with hq' | hq'
      · have := h.jobs y b1 q' hq' e k
        simp only; omega
      · simp only [List.mem_cons, List.not_mem_nil, or_false] at hq'
        subst hq'; simp only; omega
    · dsimp only at e ⊢
      rw [value_combine_nonneg hk nonneg_nil]
      rcases List.mem_append.1 hq' with hq' | hq'
      · obtain ⟨y, hy, e2⟩ := h.has q' hq'
        exact absurd (e2.trans e) (b1 y hy)
      · simp only [List.mem_cons, List.not_mem_nil, or_false] at hq'
        subst hq'; simp only; omega
  · intro x hx k
    rw [List.filter_append, List.map_append, List.sum_append]
    rcases a1 x hx with ⟨b1, b2⟩ | ⟨y, b1, b2, rfl⟩ | ⟨b1, rfl⟩
    · have : [q].filter (fun q => decide (q.rulesId = x.1)) = [] := by
        simp [Ne.symm b2]
      rw [this, h.time x b1 k]; simp
    · have : [q].filter (fun q => decide (q.rulesId = y.1)) = [q] := by
        simp [b2]
      dsimp only
      rw [this, value_combine_nonneg hk (h.nonneg y b1)]
      dsimp only
      rw [h.time y b1 k]; simp
    · have h1 : [q].filter (fun q' => decide (q'.rulesId = q.rulesId)) = [q] := by simp
      have h2 : done.filter (fun q' => decide (q'.rulesId = q.rulesId)) = [] := by
        rw [List.filter_eq_nil_iff]
        intro q' hq'
        simp only [decide_eq_true_eq]
        intro e
        obtain ⟨y, hy, e2⟩ := h.has q' hq'
        exact b1 y hy (e2.trans e)
      dsimp only
      rw [h1, h2, value_combine_nonneg hk nonneg_nil]
      simp [value]
  · intro x hx
    rcases a1 x hx with ⟨b1, b2⟩ | ⟨y, b1, b2, rfl⟩ | ⟨b1, rfl⟩
    · exact h.nonneg x b1
    · exact nonneg_combine hk hn (h.nonneg y b1)
    · exact nonneg_combine hk hn nonneg_nil

theorem groups_ok (env : Env) : ∀ (slots done : List SlotQuotas) (g : Groups), GroupsOk env done g →
    (∀ q ∈ slots, Keyed q.counters ∧ NonNeg q.counters) →
    GroupsOk env (done ++ slots) (slots.foldl (fun g q => groupStep env q g) g)
  | [], done, g, h, _ => by simpa using h
  | q :: qs, done, g, h, hq => by
    have h1 := groupStep_ok h (hq q (by simp)).1 (hq q (by simp)).2
    have := groups_ok env qs (done ++ [q]) _ h1 (fun q' hq' => hq q' (by simp [hq']))
    simpa using this

theorem groups_nil (env : Env) : GroupsOk env [] [] := by
  constructor <;> simp

end Oar.Quotas
