import Verif.RoundTimeline

/-!
# A scheduling pass never raises (C98)

Without quotas calendar, for jobs which can be read.
-/

namespace Oar.Kao
open Spec Oar.Hierarchy

/-- A tiled chain has at most as many slots as seconds. -/
theorem tiled_length : ∀ (c : List Slot) (lo hi : Int), Tiled lo c hi → (c.length : Int) ≤ hi - lo + 1
  | [], lo, hi, h => by
    simp only [Tiled] at h
    simp only [List.length_nil]
    omega
  | s :: r, lo, hi, h => by
    obtain ⟨h1, h2, h3⟩ := h
    have := tiled_length r _ _ h3
    simp only [List.length_cons]
    omega

/-- The search with quotas, from a slot of the chain. -/
theorem quotasLoop_total {job : Job} {mld : Mld} {hy : Hy} {ctx : Ctx} {ss : SlotSet} (hp : Plain job) (hw : 0 < mld.walltime) (hok : ∀ g ∈ mld.groups, GroupOk hy g)
    (hcal : ctx.cal = none) : ∀ (r l : List Slot) (cur : Slot) (fuel : Nat), Partition ss (l ++ cur :: r) → r.length < fuel → ∃ res, quotasLoop job mld hy fuel ctx ss cur = some res
  | r, l, cur, 0, _, hf => absurd hf (by omega)
  | r, l, cur, fuel + 1, h, hf => by
    have hcont : ∃ res, (if cur.next = 0 then some (ctx, ss, none)
          else
            match ss.get? cur.id with
            | none => none
            | some cur' =>
              match ss.get? cur'.next with
              | none => none
              | some nxt => quotasLoop job mld hy fuel ctx ss nxt) = some res := by
      by_cases hn : cur.next = 0
      · rw [if_pos hn]; exact ⟨_, rfl⟩
      · rw [if_neg hn, h.get (s := cur) (by simp)]
        dsimp only
        cases r with
        | nil => exact absurd h.next_last hn
        | cons y r =>
          obtain ⟨_, _, h3⟩ := h.next_cons
          rw [h3]
          exact quotasLoop_total hp hw hok hcal r (l ++ [cur]) y fuel (by simpa using h) (by simpa using hf)
    unfold quotasLoop
    dsimp only
    have hend : ss.endFor mld.walltime cur = (cur :: r).find? (fun e => decide (e.e - cur.b + 1 ≥ mld.walltime)) := by
      unfold SlotSet.endFor
      rw [traverse_from h rfl]
    rcases cand_spec h hw (l := l) (r := r) (s := cur) rfl with ⟨z, h1, _, _, A, h4, _⟩ | ⟨h1, _⟩
    · rw [hend, h1]
      dsimp only
      have hqp : quotasPrepare ctx ss cur z = some (some (ctx, ss)) := by
        unfold quotasPrepare; rw [hcal]
      rw [hqp]
      dsimp only
      rw [available_plain hp, h4]
      dsimp only
      obtain ⟨R, hR, _⟩ := findJob_sat A hy mld.groups hok
      rw [hR]
      dsimp only
      split
      · split
        · exact ⟨_, rfl⟩
        · exact hcont
      · exact hcont
    · rw [hend, h1]
      exact hcont

/-- The job has a key in the cache for each alternative, or no key at all. -/
def Keyed (job : Job) : Prop := job.keyCache = [] ∨ ∀ m ∈ job.mlds, (job.keyCache.lookup m.id).isSome = true

theorem searchStart_total {ss : SlotSet} {c : List Slot} (hc : Partition ss c) {job : Job} {m : Mld} (minStart : Int)
    (hkey : job.keyCache = [] ∨ (job.keyCache.lookup m.id).isSome) : ∃ sid, searchStart ss job m minStart = some sid := by
  unfold searchStart
  cases hcc : c with
  | nil => exact absurd hcc hc.ne
  | cons f r =>
    rw [hcc] at hc
    rw [hc.first]
    dsimp only
    split
    · split
      · exact ⟨_, rfl⟩
      · rename_i hne
        rcases hkey with hk | hk
        · rw [hk] at hne; simp at hne
        · obtain ⟨k, hk⟩ := Option.isSome_iff_exists.1 hk
          rw [hk]
          exact ⟨_, rfl⟩
    · rcases slotIdAt_spec hc minStart with ⟨_, _, x, _, h4, _⟩ | ⟨_, h2⟩
      · exact ⟨_, h4⟩
      · exact ⟨_, h2⟩

/-- The search never raises, quotas or not. -/
theorem findFirst_total {ctx : Ctx} {ss : SlotSet} {job : Job} {m : Mld} {hy : Hy} (minStart : Int) (hcal : ctx.cal = none) (hp : Plain job) (hss : SetOk ss)
    (hw : 0 < m.walltime) (hkey : job.keyCache = [] ∨ (job.keyCache.lookup m.id).isSome) (hok : ∀ g ∈ m.groups, GroupOk hy g) :
    ∃ res, findFirst ctx ss job m hy minStart = some res := by
  by_cases hq : ctx.env.enabled ∧ job.noQuotas = false
  · unfold findFirst
    rw [if_pos hq]
    unfold findQuotas
    obtain ⟨⟨c, hc⟩, hci, _⟩ := hss
    obtain ⟨sid, hsid⟩ := searchStart_total hc minStart hkey
    rw [hsid]
    dsimp only
    rw [if_pos hw]
    obtain ⟨l, s, r, e, _, _, hg⟩ := searchStart_spec hc hci hsid _ hw
    rw [hg]
    dsimp only
    refine quotasLoop_total hp hw hok hcal r l s _ (e ▸ hc) ?_
    have := tiled_length _ _ _ hc.tiled
    rw [e] at this
    simp only [List.length_append, List.length_cons] at this
    omega
  · exact Option.isSome_iff_exists.1 (search_total ctx ss job m hy minStart hq hp hss hw hkey hok)

theorem assignLoop_total {job : Job} {hy : Hy} {minStart : Int} (hp : Plain job) : ∀ (ms : List Mld) (ctx : Ctx) (ss : SlotSet) (best : Option Best) (n : Nat),
    (∀ m ∈ ms, 0 < m.walltime ∧ (job.keyCache = [] ∨ (job.keyCache.lookup m.id).isSome) ∧ ∀ g ∈ m.groups, GroupOk hy g) → ctx.cal = none → SetOk ss →
    ∃ res, assignLoop job hy minStart ms ctx ss best n = some res
  | [], ctx, ss, best, n, _, _, _ => ⟨_, rfl⟩
  | m :: ms, ctx, ss, best, n, hm, hcal, hss => by
    obtain ⟨hw, hk, hok⟩ := hm m (by simp)
    obtain ⟨⟨ctx', ss', res⟩, hf⟩ := findFirst_total (ctx := ctx) (ss := ss) (job := job) (m := m) (hy := hy) minStart hcal hp hss hw hk hok
    obtain ⟨hs, hci'⟩ := findFirst_spec hss.1 hss.2.1 hp hf
    obtain ⟨rfl, hsame⟩ := findFirst_noCal hss.1 hss.2.1 hp hcal hf
    have hss' : SetOk ss' := ⟨hs.wf, hci', by rw [hs.bounds.2]; exact hss.2.2⟩
    have hrec := fun best n => assignLoop_total (minStart := minStart) hp ms ctx' ss' best n (fun x hx => hm x (List.mem_cons_of_mem _ hx)) hcal hss'
    unfold assignLoop
    rw [hf]
    cases res with
    | none => exact hrec _ _
    | some y =>
      obtain ⟨R, a, z⟩ := y
      dsimp only
      obtain ⟨s, h1, h2, h3, _⟩ := hs.found hp R a z rfl
      have hg : ss'.get? a = some s := by
        obtain ⟨c1, hc1⟩ := hs.wf
        rw [← h2]; exact hc1.get (hc1.mem_iff.1 h1)
      rw [hg]
      dsimp only
      split
      · obtain ⟨l', r', he, _⟩ := encompassing_window (finish := s.b + m.walltime - 1) hs.wf h1 (by omega) h3.hi
        rw [he]
        exact hrec _ _
      · exact hrec _ _

/-- The slot 1 is there. -/
def HasOne (ss : SlotSet) : Prop := ∃ s ∈ ss.slots, s.id = 1

theorem HasOne.ids {a b : SlotSet} (h : HasOne a) (hi : IdsKept a b) : HasOne b := by
  obtain ⟨s, hs, e⟩ := h
  obtain ⟨s', hs', e'⟩ := hi s hs
  exact ⟨s', hs', e'.trans e⟩

theorem KeepsBegins.hasOne {a b : SlotSet} (h : HasOne a) (hi : KeepsBegins a b) : HasOne b := by
  obtain ⟨s, hs, e⟩ := h
  obtain ⟨s', hs', e', _⟩ := hi s hs
  exact ⟨s', hs', e'.trans e⟩

/-- A job which the search can read. -/
structure Legible (hy : Hy) (job : Job) : Prop where
  walltime : ∀ m ∈ job.mlds, 0 < m.walltime
  keyed : Keyed job
  groups : ∀ m ∈ job.mlds, ∀ g ∈ m.groups, GroupOk hy g

theorem assign_total {ctx : Ctx} {ss : SlotSet} {job : Job} {hy : Hy} (minStart : Int) (hcal : ctx.cal = none) (hp : Plain job) (hss : SetOk ss) (h1 : HasOne ss)
    (hl : Legible hy job) : ∃ res, assign ctx ss job hy minStart = some res := by
  unfold assign
  obtain ⟨s, hs, hid⟩ := h1
  have hg : ss.get? 1 = some s := by
    obtain ⟨c, hc⟩ := hss.1
    rw [← hid]; exact hc.get (hc.mem_iff.1 hs)
  rw [hg]
  dsimp only
  obtain ⟨⟨ctx', ss', best, n⟩, ha⟩ := assignLoop_total (minStart := minStart) hp job.mlds ctx ss none 0 (fun m hm => ⟨hl.walltime m hm, by
    rcases hl.keyed with hk | hk
    · exact Or.inl hk
    · exact Or.inr (hk m hm), hl.groups m hm⟩) hcal hss
  rw [ha]
  dsimp only
  obtain ⟨g1, g2, g3, g4⟩ := assignLoop_spec hp job.mlds job.mlds _ _ _ _ _ _ _ _ (fun _ hm => hm) hss.1 hss.2.1 hss.2.2 (Or.inl hcal) (by simp) ha
  split
  · exact ⟨_, rfl⟩
  · rename_i hn
    cases best with
    | none => exact absurd (by simpa using g4.2.1 rfl rfl) hn
    | some b =>
      dsimp only
      have hb := g3 b rfl
      have hpos := hb.pos
      have hwin := hb.win
      rw [hb.fin] at hwin
      obtain ⟨ss3, k1, _⟩ := split_window (ctx := ctx') (R := b.res) (sub := true)
        (job := { job with moldableId := b.mld.id, resSet := some b.res, startTime := b.start, walltime := some b.mld.walltime }) (by omega) hwin
      rw [k1]
      exact ⟨_, rfl⟩

theorem scheduleOne_total {n : String} {s0 : SlotSet} {ids : List Nat} {hy : Hy} {sec : Int} {st : Sched} {jid : Nat} {job : Job} {ss : SlotSet}
    (hinv : PassInv n s0 ids st) (hset : st.sets = [(n, ss)]) (h1 : HasOne ss) (hj : st.job? jid = some job) (hf : Fresh n job) (hn : job.setName = n)
    (hc : job.types.lookup "container" = none) (hl : Legible hy job) (hcal : st.ctx.cal = none) :
    ∃ st' ss', scheduleOne hy sec st jid = some st' ∧ st'.sets = [(n, ss')] ∧ HasOne ss' := by
  obtain ⟨ssn, k1, k2, _⟩ := hinv.set_
  have hlk : st.sets.lookup n = some ss := by rw [hset]; simp
  rw [hlk, Option.some.injEq] at k1
  subst k1
  unfold scheduleOne
  rw [hj]
  dsimp only
  split
  · exact ⟨_, ss, rfl, hset, h1⟩
  · rename_i minStart _
    rw [hn, hlk]
    dsimp only
    obtain ⟨⟨ctx', ss', job'⟩, ha⟩ := assign_total minStart hcal hf.plain k2 h1 hl
    rw [ha]
    dsimp only
    have hst := assign_static ha
    have hcont : job'.types.lookup "container" = none := by rw [hst.2.1]; exact hc
    unfold openContainer
    rw [hcont]
    obtain ⟨_, _, _, _, _, hkb, _⟩ := assign_spec hf.plain k2.1 k2.2.1 k2.2.2 (Or.inl hcal) ha
    refine ⟨_, ss', rfl, ?_, hkb.hasOne h1⟩
    show dictSet n ss' st.sets = [(n, ss')]
    rw [hset]
    simp [dictSet]

/-- A pass over the waiting jobs never raises. -/
theorem schedule_total {n : String} {s0 : SlotSet} {hy : Hy} {sec : Int} : ∀ (jids ids : List Nat) (st : Sched) (ss : SlotSet), PassInv n s0 ids st → jids.Nodup →
    (∀ i ∈ jids, i ∉ ids) → st.sets = [(n, ss)] → HasOne ss →
    (∀ jid ∈ jids, ∃ job, st.job? jid = some job ∧ Fresh n job ∧ job.setName = n ∧ job.types.lookup "container" = none ∧ Legible hy job) → st.ctx.cal = none →
    ∃ st' ss', schedule hy sec jids st = some st' ∧ st'.sets = [(n, ss')] ∧ HasOne ss'
  | [], ids, st, ss, _, _, _, hset, h1, _, _ => ⟨st, ss, rfl, hset, h1⟩
  | jid :: jids, ids, st, ss, hinv, hnd, hdis, hset, h1, hjobs, hcal => by
    obtain ⟨job, hj, hf, hn, hc, hl⟩ := hjobs jid (by simp)
    have hnd1 : jid ∉ jids ∧ jids.Nodup := List.nodup_cons.1 hnd
    obtain ⟨st1, ss1, he, hset1, h11⟩ := scheduleOne_total (sec := sec) hinv hset h1 hj hf hn hc hl hcal
    have hinv1 := passInv_step hinv (hdis jid (by simp)) (fun job' hj' => by
      rw [hj, Option.some.injEq] at hj'
      subst hj'
      exact ⟨hf, Or.inl hcal⟩) he
    have hother : ∀ i, i ≠ jid → st1.job? i = st.job? i := fun i hi => scheduleOne_job? he hi
    have hctx := scheduleOne_cal he hcal
    unfold schedule
    rw [he]
    exact schedule_total jids (jid :: ids) st1 ss1 hinv1 hnd1.2 (fun i hi => by
      rw [List.mem_cons]
      rintro (e | e)
      · exact hnd1.1 (e ▸ hi)
      · exact hdis i (List.mem_cons_of_mem _ hi) e) hset1 h11 (fun i hi => by
        rw [hother i (fun e => hnd1.1 (e ▸ hi))]
        exact hjobs i (List.mem_cons_of_mem _ hi)) (by rw [hctx]; exact hcal)

/-! ## The jobs already placed -/

theorem splitJobsLoop_total {ctx : Ctx} : ∀ (jobs : List Job) (ss : SlotSet) (f : Slot), WF ss → f ∈ ss.slots →
    (∀ j ∈ jobs, f.b ≤ j.startTime ∨ f.b = ss.begin_) → jobs.Pairwise (fun a b => a.startTime ≤ b.startTime) → (∀ j ∈ jobs, Placed j) →
    ∃ ss', SlotSet.splitJobsLoop ctx true jobs ss f.id = some ss'
  | [], ss, f, _, _, _, _, _ => ⟨ss, rfl⟩
  | j :: js, ss, f, hwf, hf, hfb, hs, hp => by
    obtain ⟨w, R, hw, hR, hw1⟩ := hp j (by simp)
    have hs1 : (∀ a ∈ js, j.startTime ≤ a.startTime) ∧ js.Pairwise (fun a b => a.startTime ≤ b.startTime) := List.pairwise_cons.1 hs
    unfold SlotSet.splitJobsLoop
    by_cases hin : ss.begin_ ≤ j.startTime + w ∧ j.startTime ≤ ss.end_
    · obtain ⟨ss1, fid, e1, e2, e3, _, _, ⟨f', m1, m2, m3⟩, _⟩ := splitJobStep_spec (ctx := ctx) (sub := true) hwf hf (hfb j (by simp)) hw hR hw1 hin
      rw [e1]
      dsimp only
      rw [← m2]
      exact splitJobsLoop_total js ss1 f' e2 m1 (by
        intro a ha
        rcases m3 with m3 | m3
        · left; rw [m3]; exact hs1.1 a ha
        · right; rw [m3, e3.1]) hs1.2 (fun a ha => hp a (List.mem_cons_of_mem _ ha))
    · have h1 : ss.splitJobStep ctx true f.id j = some (ss, f.id) := by
        unfold SlotSet.splitJobStep
        simp only [hw, hR]
        rw [if_neg (by omega)]
      rw [h1]
      exact splitJobsLoop_total js ss f hwf hf (fun a ha => hfb a (List.mem_cons_of_mem _ ha)) hs1.2 (fun a ha => hp a (List.mem_cons_of_mem _ ha))

theorem splitJobs_total {ctx : Ctx} {jobs : List Job} {ss : SlotSet} (hwf : WF ss) (hs : jobs.Pairwise (fun a b => a.startTime ≤ b.startTime))
    (hp : ∀ j ∈ jobs, Placed j) : ∃ ss', ss.splitJobs ctx jobs true = some ss' := by
  unfold SlotSet.splitJobs
  obtain ⟨c, hc⟩ := id hwf
  cases c with
  | nil => exact absurd rfl hc.ne
  | cons f r =>
    rw [hc.first]
    exact splitJobsLoop_total jobs ss f hwf (hc.mem_iff.2 (by simp)) (fun j _ => Or.inr hc.tiled.1) hs hp

/-- The only timeline is the default one. -/
theorem setPrev_total {ctx : Ctx} {ss : SlotSet} {jobs : List Job} {sec now : Int} {fb ob : Bool}
    (hc : ∀ j ∈ jobs, j.types.lookup "container" = none ∧ j.types.lookup "inner" = none) (hwf : WF ss)
    (hs : jobs.Pairwise (fun a b => a.startTime ≤ b.startTime)) (hp : ∀ j ∈ jobs, Placed j) :
    ∃ ss', setPrev ctx [("default", ss)] jobs sec now fb ob = some [("default", ss')] := by
  obtain ⟨ss', h⟩ := splitJobs_total (ctx := ctx) hwf (hs.sublist (List.filter_sublist (p := kept fb ob))) (fun j hj => hp j (List.mem_of_mem_filter hj))
  refine ⟨ss', ?_⟩
  unfold setPrev
  rw [prevLoop_default jobs _ [] hc]
  dsimp only
  rw [List.nil_append]
  simp only [insertGroups, List.lookup_cons_self, h]

end Oar.Kao
