import Verif.QuotasSearch

/-!
# Lemmas about the assignment of one job
-/

namespace Oar.Kao
open Spec Oar.Hierarchy

/-! ## The search cache -/

/-- What a cache key stands for: the walltime and the groups of the request (the key is
`str(walltime) + str(hy_res_rqts)`, oar/lib/job_handling.py:206). -/
abbrev Decode := String → Int × List Group

/-- The keys of the job denote its own requests. -/
def KeyOk (dec : Decode) (job : Job) : Prop :=
  ∀ m ∈ job.mlds, ∀ k, job.keyCache.lookup m.id = some k → dec k = (m.walltime, m.groups)

/-- The cache never points after a date at which its request could start. -/
def CacheOk (dec : Decode) (hy : Hy) (ss : SlotSet) : Prop :=
  ∀ k i, ss.cache.lookup k = some i → 0 < (dec k).1 ∧ ∃ s ∈ ss.slots, s.id = i ∧
    ∀ t, t < s.b → ¬ Feasible ss hy (dec k).2 (dec k).1 t

theorem CacheOk.ids {dec : Decode} {hy : Hy} {ss : SlotSet} (h : CacheOk dec hy ss) : CacheIds ss := by
  intro k i hk
  obtain ⟨_, s, hs, e, _⟩ := h k i hk
  exact ⟨s, hs, e⟩

theorem cacheOk_nil (dec : Decode) (hy : Hy) {ss : SlotSet} (h : ss.cache = []) : CacheOk dec hy ss := by
  intro k i hk
  rw [h] at hk
  simp at hk

/-- When resources are only removed and slots keep their begin, the cache stays valid. -/
theorem CacheOk.shrink {dec : Decode} {hy : Hy} {ss ss' : SlotSet} (h : CacheOk dec hy ss) (hwf : WF ss)
    (hc : ss'.cache = ss.cache) (hb : KeepsBegins ss ss') (hf : ∀ t x, Free ss' t x → Free ss t x) :
    CacheOk dec hy ss' := by
  intro k i hk
  rw [hc] at hk
  obtain ⟨hpos, s, hs, e, hn⟩ := h k i hk
  obtain ⟨s', hs', e1, e2⟩ := hb s hs
  refine ⟨hpos, s', hs', e1.trans e, fun t ht hfe => ?_⟩
  apply hn t (by omega)
  obtain ⟨A, h1, h2⟩ := hfe
  obtain ⟨B, hB⟩ := freeDuring_finite hwf (w := (dec k).1) (t := t) hpos
  refine ⟨B, hB, satisfiable_mono ?_ h2⟩
  intro x hx
  rw [hB]
  rw [h1] at hx
  exact fun u h3 h4 => hf u x (hx u h3 h4)

theorem sameSlots_free {ss ss' : SlotSet} (h : SameSlots ss ss') (t : Int) (x : Nat) :
    Free ss' t x ↔ Free ss t x := by simp only [Free, h.1]

theorem sameSlots_freeDuring {ss ss' : SlotSet} (h : SameSlots ss ss') (t w : Int) (x : Nat) :
    FreeDuring ss' t w x ↔ FreeDuring ss t w x := by simp only [FreeDuring, sameSlots_free h]

theorem sameSlots_feasible {ss ss' : SlotSet} (h : SameSlots ss ss') {hy : Hy} {g : List Group} {w t : Int} :
    Feasible ss' hy g w t ↔ Feasible ss hy g w t := by simp only [Feasible, sameSlots_freeDuring h]

theorem sameSlots_answers {ss ss' : SlotSet} (h : SameSlots ss ss') {hy : Hy} {g : List Group} {w t : Int}
    {R : ProcSet} : Answers ss' hy g w t R ↔ Answers ss hy g w t R := by
  constructor
  · rintro ⟨a1, a2, a3, a4, a5⟩
    refine ⟨?_, a2, h.2.1 ▸ a3, h.2.2.1 ▸ a4, ?_⟩
    · simpa only [sameSlots_freeDuring h] using a1
    · simpa only [sameSlots_freeDuring h] using a5
  · rintro ⟨a1, a2, a3, a4, a5⟩
    refine ⟨?_, a2, h.2.1.symm ▸ a3, h.2.2.1.symm ▸ a4, ?_⟩
    · simpa only [sameSlots_freeDuring h] using a1
    · simpa only [sameSlots_freeDuring h] using a5

/-! ## First fit for one alternative -/

/-- The dates at which the search may place the job. -/
def Allowed (minStart t : Int) : Prop := minStart < 0 ∨ minStart ≤ t

/-- Nothing suitable was skipped. -/
def FirstFit (ss : SlotSet) (hy : Hy) (m : Mld) (minStart : Int) (res : Option (ProcSet × Nat × Nat)) : Prop :=
  (res = none → ∀ t, Allowed minStart t → ¬ Feasible ss hy m.groups m.walltime t) ∧
  ∀ R a b, res = some (R, a, b) → ∃ s ∈ ss.slots, s.id = a ∧ Answers ss hy m.groups m.walltime s.b R ∧
    ∀ t, Allowed minStart t → t < s.b → ¬ Feasible ss hy m.groups m.walltime t

theorem not_feasible_before {ss : SlotSet} {c l : List Slot} {s : Slot} {r : List Slot} (h : Partition ss c)
    (hc : c = l ++ s :: r) {hy : Hy} {m : Mld} {job : Job} {minStart : Int} {dec : Decode}
    (hw : 0 < m.walltime) (hok : ∀ g ∈ m.groups, GroupOk hy g) (hm : m ∈ job.mlds) (hk : KeyOk dec job)
    (hco : CacheOk dec hy ss) (hst : StartsAt ss job m minStart s) (t : Int) (ht : Allowed minStart t)
    (hlt : t < s.b) : ¬ Feasible ss hy m.groups m.walltime t := by
  intro hf
  have hb := feasible_hi ⟨c, h⟩ hw hok hf
  cases hst with
  | first h1 hm' => omega
  | cached k h1 h2 h3 =>
    obtain ⟨_, s', hs', e, hn⟩ := hco k s.id h3
    have hd := hk m hm k h2
    have : s' = s := id_inj h (h.mem_iff.1 hs') (by rw [hc]; simp) e
    subst this
    rw [hd] at hn
    exact hn t hlt hf
  | at_ h0 h1 h2 =>
    rcases ht with ht | ht <;> omega

theorem not_feasible_seg {ss : SlotSet} {c l : List Slot} {s : Slot} {P Q r : List Slot} (h : Partition ss c)
    (hc : c = l ++ s :: r) (hs : s :: r = P ++ Q) {hy : Hy} {m : Mld} 
    (hw : 0 < m.walltime) (hok : ∀ g ∈ m.groups, GroupOk hy g)
    (hP : ∀ y ∈ P, Refused ss hy m.groups m.walltime y) (t : Int) (h1 : s.b ≤ t) (hl : t ≤ ss.end_)
    (h2 : ∀ y ∈ Q, t < y.b) : ¬ Feasible ss hy m.groups m.walltime t := by
  intro hf
  have hb := feasible_hi ⟨c, h⟩ hw hok hf
  have hT := h.tiled
  rw [hc, tiled_append] at hT
  obtain ⟨mm, _, hT⟩ := hT
  have hTb := hT.1
  obtain ⟨l', y, r', e, h3, h4⟩ := tiled_cover _ _ _ t hT (by omega) (by omega)
  have hy : y ∈ s :: r := by rw [e]; simp
  rw [hs, List.mem_append] at hy
  have hyc : y ∈ c := by rw [hc, e]; simp
  rcases hy with hy | hy
  · exact refused_not_feasible ⟨c, h⟩ hw hok (hP y hy) (feasible_slot h hw hyc h3 h4 hf)
  · have := h2 y hy
    omega

theorem findNoQuotas_firstFit {ss ss' : SlotSet} (hwf : WF ss) {dec : Decode} {hy : Hy} (hco : CacheOk dec hy ss)
    {job : Job} (hp : Plain job) {m : Mld} (hm : m ∈ job.mlds) (hk : KeyOk dec job)
    (hok : ∀ g ∈ m.groups, GroupOk hy g) {minStart : Int} {res : Option (ProcSet × Nat × Nat)}
    (hf : findNoQuotas ss job m hy minStart = some (ss', res)) :
    SameSlots ss ss' ∧ 0 < m.walltime ∧ FirstFit ss hy m minStart res ∧ CacheOk dec hy ss' := by
  obtain ⟨c, hc⟩ := hwf
  obtain ⟨hw, hss, l, s, r, e, hst, hres⟩ := findNoQuotas_spec hc hco.ids hp hf
  have hcache : CacheOk dec hy { ss' with cache := ss.cache } := by
    intro k i hk'
    obtain ⟨hpos, y, hy', e1, hn⟩ := hco k i hk'
    refine ⟨hpos, y, by show y ∈ ss'.slots; rw [hss.1]; exact hy', e1, fun t ht => ?_⟩
    rw [sameSlots_feasible (ss := ss) (ss' := { ss' with cache := ss.cache }) hss]
    exact hn t ht
  rcases hres with ⟨h1, h2, h3⟩ | ⟨P, x, Q, R, z, h1, h2, h3, h4, h5, h6⟩
  · refine ⟨hss, hw, ⟨?_, ?_⟩, ?_⟩
    · intro _ t ht
      by_cases hlt : t < s.b
      · exact not_feasible_before hc e hw hok hm hk hco hst t ht hlt
      · intro hfe
        have hb := feasible_hi ⟨c, hc⟩ hw hok hfe
        exact not_feasible_seg hc e (P := s :: r) (Q := []) (by simp) hw hok h3 t (by omega) (by omega) (by simp) hfe
    · intro R a b eq; rw [h1] at eq; simp at eq
    · rw [← h2] at hcache; exact hcache
  · have hff : ∀ t, Allowed minStart t → t < x.b → ¬ Feasible ss hy m.groups m.walltime t := by
      intro t ht htx hfe
      have hb := feasible_hi ⟨c, hc⟩ hw hok hfe
      by_cases hlt : t < s.b
      · exact not_feasible_before hc e hw hok hm hk hco hst t ht hlt hfe
      · have hT := hc.tiled
        rw [e, h1, ← List.append_assoc, tiled_append] at hT
        obtain ⟨mm, _, hT1, hT2, hT3⟩ := hT
        refine not_feasible_seg hc e h1 hw hok h4 t (by omega) (by omega) ?_ hfe
        intro y hy
        rcases List.mem_cons.1 hy with rfl | hy
        · exact htx
        · have := (tiled_bounds _ _ _ hT3).2 y hy
          omega
    have hxc : x ∈ c := by rw [e, h1]; simp
    refine ⟨hss, hw, ⟨by rw [h3]; simp, ?_⟩, ?_⟩
    · intro R' a b eq
      rw [h3] at eq
      simp only [Option.some.injEq, Prod.mk.injEq] at eq
      obtain ⟨rfl, rfl, rfl⟩ := eq
      exact ⟨x, hc.mem_iff.2 hxc, rfl, h5, hff⟩
    · rcases h6 with ⟨h6, _⟩ | ⟨k, hms, hkk, h6⟩
      · rw [← h6] at hcache; exact hcache
      · intro k' i hk'
        rw [h6, lookup_dictSet] at hk'
        split at hk'
        · rename_i hkeq
          subst hkeq
          obtain rfl := Option.some.inj hk'
          refine ⟨by rw [hk m hm _ hkk]; exact hw, x, by rw [hss.1]; exact hc.mem_iff.2 hxc, rfl, fun t ht => ?_⟩
          rw [sameSlots_feasible hss, hk m hm _ hkk]
          exact hff t (Or.inl hms) ht
        · exact hcache k' i hk'

/-- `Frame` preserves the validity of the cache. -/
theorem CacheOk.frame {dec : Decode} {hy : Hy} {ss ss' : SlotSet} (h : CacheOk dec hy ss) (hwf : WF ss)
    (f : Frame ss ss') : CacheOk dec hy ss' :=
  h.shrink hwf f.meta_.2.2 f.begins (fun t x hx => (f.free hwf t x).1 hx)

theorem findFirst_cache {ctx ctx' : Ctx} {ss ss' : SlotSet} (hwf : WF ss) {dec : Decode} {hy : Hy}
    (hco : CacheOk dec hy ss) {job : Job} (hp : Plain job) {m : Mld} (hm : m ∈ job.mlds) (hk : KeyOk dec job)
    (hok : ∀ g ∈ m.groups, GroupOk hy g) {minStart : Int} {res : Option (ProcSet × Nat × Nat)}
    (hf : findFirst ctx ss job m hy minStart = some (ctx', ss', res)) : CacheOk dec hy ss' := by
  unfold findFirst at hf
  split at hf
  · obtain ⟨c, hc⟩ := hwf
    obtain ⟨_, _, h3, _⟩ := findQuotas_spec hc hco.ids hf
    exact hco.frame ⟨c, hc⟩ h3
  · simp only [Option.map_eq_some_iff, Prod.mk.injEq] at hf
    obtain ⟨⟨ss1, res1⟩, hf, rfl, rfl, rfl⟩ := hf
    exact (findNoQuotas_firstFit hwf hco hp hm hk hok hf).2.2.2

/-! ## Without a quotas calendar the search does not cut slots -/

theorem quotasLoop_noCal {job : Job} {mld : Mld} {hy : Hy} : ∀ (fuel : Nat) (ctx ctx' : Ctx) (ss ss' : SlotSet)
    (cur : Slot) (res : Option (ProcSet × Nat × Nat)), ctx.cal = none →
    quotasLoop job mld hy fuel ctx ss cur = some (ctx', ss', res) → ctx' = ctx ∧ ss' = ss
  | 0, _, _, _, _, _, _, _, h => by simp [quotasLoop] at h
  | fuel + 1, ctx, ctx', ss, ss', cur, res, hcal, h => by
    have hcont : (if cur.next = 0 then some (ctx, ss, none)
          else
            match ss.get? cur.id with
            | none => none
            | some cur' =>
              match ss.get? cur'.next with
              | none => none
              | some nxt => quotasLoop job mld hy fuel ctx ss nxt) = some (ctx', ss', res) →
        ctx' = ctx ∧ ss' = ss := by
      intro hc
      split at hc
      · simp only [Option.some.injEq, Prod.mk.injEq] at hc
        exact ⟨hc.1.symm, hc.2.1.symm⟩
      · split at hc
        · simp at hc
        · split at hc
          · simp at hc
          · exact quotasLoop_noCal fuel _ _ _ _ _ _ hcal hc
    unfold quotasLoop at h
    dsimp only at h
    cases hend : ss.endFor mld.walltime cur with
    | none => rw [hend] at h; exact hcont h
    | some e =>
      rw [hend] at h
      dsimp only at h
      have hqp : quotasPrepare ctx ss cur e = some (some (ctx, ss)) := by
        unfold quotasPrepare; rw [hcal]
      rw [hqp] at h
      dsimp only at h
      split at h
      · simp at h
      · split at h
        · simp at h
        · split at h
          · split at h
            · simp only [Option.some.injEq, Prod.mk.injEq] at h
              exact ⟨h.1.symm, h.2.1.symm⟩
            · exact hcont h
          · exact hcont h

theorem findFirst_noCal {ctx ctx' : Ctx} {ss ss' : SlotSet} (hwf : WF ss) (hci : CacheIds ss)
    {job : Job} {mld : Mld} {hy : Hy} {minStart : Int} {res : Option (ProcSet × Nat × Nat)} (hpl : Plain job)
    (hcal : ctx.cal = none) (hf : findFirst ctx ss job mld hy minStart = some (ctx', ss', res)) :
    ctx' = ctx ∧ SameSlots ss ss' := by
  unfold findFirst at hf
  split at hf
  · unfold findQuotas at hf
    split at hf
    · simp at hf
    · split at hf
      · split at hf
        · simp only [Option.some.injEq, Prod.mk.injEq] at hf
          obtain ⟨rfl, rfl, _⟩ := hf
          exact ⟨rfl, rfl, rfl, rfl, rfl⟩
        · obtain ⟨rfl, rfl⟩ := quotasLoop_noCal _ _ _ _ _ _ _ hcal hf
          exact ⟨rfl, rfl, rfl, rfl, rfl⟩
      · simp at hf
  · simp only [Option.map_eq_some_iff, Prod.mk.injEq] at hf
    obtain ⟨⟨ss1, res1⟩, hf, rfl, rfl, rfl⟩ := hf
    obtain ⟨c, hc⟩ := hwf
    exact ⟨rfl, (findNoQuotas_spec hc hci hpl hf).2.1⟩

/-! ## The range of slots of the chosen placement -/

/-- `left..right` are the slots of the window `[start, finish]`, the first one beginning at `start`. -/
def Window (ss : SlotSet) (left right : Nat) (start finish : Int) : Prop :=
  ∃ l t i r a z, Partition ss (l ++ (a :: t) ++ r) ∧ a :: t = i ++ [z] ∧ a.id = left ∧ z.id = right ∧
    a.b = start ∧ z.b ≤ finish ∧ finish ≤ z.e

theorem SameSlots.window {ss ss' : SlotSet} (h : SameSlots ss ss') {l r : Nat} {s f : Int} (hw : Window ss l r s f) :
    Window ss' l r s f := by
  obtain ⟨a1, a2, a3, a4, a5, a6, h1, h2⟩ := hw
  exact ⟨a1, a2, a3, a4, a5, a6, h.part h1, h2⟩

theorem encompassing_window {ss : SlotSet} (hwf : WF ss) {s : Slot} (hs : s ∈ ss.slots) {finish : Int}
    (h1 : s.b ≤ finish) (h2 : finish ≤ ss.end_) : ∃ l r, ss.encompassingSlots s.b finish 0 = some (l, r) ∧
      Window ss l r s.b finish := by
  obtain ⟨c, hc⟩ := hwf
  have hsc := hc.mem_iff.1 hs
  have hbd := (tiled_bounds _ _ _ hc.tiled).2
  cases hcc : c with
  | nil => exact absurd hcc hc.ne
  | cons f R0 =>
    have hfb : f.b = ss.begin_ := by have := hc.tiled; rw [hcc] at this; exact this.1
    have hsb := hbd s hsc
    obtain ⟨l, t, i, r, a, z, e1, e2, e3, e4, e5, e6, e7, e8⟩ :=
      encompassing_spec (tb := s.b) (te := finish) (fid := 0) hc (A0 := []) hcc (Or.inr ⟨rfl, rfl⟩) h1 (by omega)
    have hac : a ∈ c := by rw [e1]; simp
    have hzc : z ∈ c := by rw [e1, e2]; simp
    have hab : a.b ≤ s.b := e5 (by omega)
    have : a = s := tiled_unique c _ _ s.b hc.tiled a s hac hsc hab e4 (le_refl _) hsb.2.1
    refine ⟨a.id, z.id, e3, l, t, i, r, a, z, e1 ▸ hc, e2, rfl, rfl, by rw [this], ?_, ?_⟩
    · rcases e7 with e7 | e7
      · exact e7
      · omega
    · rcases e8 with e8 | e8
      · exact e8
      · have := last_slot (l := l) (i := i) (z := z) hc (by rw [e1, e2, e8]; simp)
        omega

theorem split_window {ctx : Ctx} {ss : SlotSet} {job : Job} {w : Int} {R : ProcSet} {l r : Nat} {sub : Bool}
    (hw : 1 ≤ w) (h : Window ss l r job.startTime (job.startTime + w - 1)) :
    ∃ ss', ss.splitSlots ctx l r job w R sub = some ss' ∧ WF ss' ∧ SameMeta ss ss' ∧ RulesFrom ctx ss ss' ∧
      KeepsBegins ss ss' ∧
      ∃ extra : Bool, (extra = true → ∃ s ∈ ss.slots, s.e = job.startTime + w) ∧
      ∀ u, ss'.pay u = (ss.pay u).map (fun p =>
        if job.startTime ≤ u ∧ (u < job.startTime + w ∨ (extra = true ∧ u = job.startTime + w))
        then effect ctx job w R sub p else p) := by
  obtain ⟨l0, t, i, r0, a, z, hp, e, rfl, rfl, hab, h1, h2⟩ := h
  obtain ⟨ss', g1, g2, g3, g4, g5, _, g7⟩ := splitSlots_core (ctx := ctx) (R := R) (sub := sub)
    (keeps_effect ctx job w R sub) (pay_effect ctx job w R sub) (rules_effect ctx job w R sub) hp e hw
    (by omega) (by omega)
  refine ⟨ss', g1, g2, g3, g4, g5 (by omega), decide (z.e = job.startTime + w), ?_, ?_⟩
  · intro hx
    refine ⟨z, hp.mem_iff.2 (by rw [e]; simp), by simpa using hx⟩
  · intro u
    rw [g7 u]
    have : ∀ p, (if max a.b job.startTime ≤ u ∧ u ≤ rightEnd z.b z.e (job.startTime + w)
          then effect ctx job w R sub p else p) =
        (if job.startTime ≤ u ∧ (u < job.startTime + w ∨ (decide (z.e = job.startTime + w) = true ∧
          u = job.startTime + w)) then effect ctx job w R sub p else p) := by
      intro p
      have hre : rightEnd z.b z.e (job.startTime + w) = if z.e = job.startTime + w then job.startTime + w
          else job.startTime + w - 1 := by
        unfold rightEnd
        by_cases h3 : z.e > job.startTime + w
        · rw [if_pos h3, if_neg (by omega), if_neg (by omega)]
        · rw [if_neg h3]; split <;> omega
      apply if_congr _ rfl rfl
      rw [hre, decide_eq_true_eq]
      by_cases hz : z.e = job.startTime + w
      · rw [if_pos hz]; omega
      · rw [if_neg hz]; omega
    simp only [this]

end Oar.Kao
