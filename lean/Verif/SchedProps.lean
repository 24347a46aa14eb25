import Verif.SchedGrid

/-!
# Property theorems about scheduling (C03, C04, C07, C08, C09, C10, C13)
-/

namespace Oar.Kao
open Spec Oar.Hierarchy

/-! ## Test data -/

/-- Four one-resource nodes. -/
def hy4 : Hy := [("node", [{1}, {2}, {3}, {4}])]

/-- Request of `k` nodes during `w`. -/
def rqt (id : Nat) (k w : Int) : Mld := ⟨id, w, [⟨[("node", k)], {1, 2, 3, 4}⟩]⟩

/-- A waiting job with a single alternative. -/
def wjob (id : Nat) (k w : Int) : Job := { id := id, mlds := [rqt id k w] }

/-- A decoder for jobs without cache keys. -/
def decNone : Decode := fun _ => (1, [])

theorem ss0_wf : WF ss0 := (fresh_wf ctx0 _ 0 0).1 (by decide)

theorem ss0_ok : SetOk ss0 := ⟨ss0_wf, fun k i h => by simp [ss0, SlotSet.ofItvs] at h, by decide⟩

theorem rqt_ok (id : Nat) (k w : Int) (hk : 0 < k) : ∀ g ∈ (rqt id k w).groups, GroupOk hy4 g := by
  intro g hg
  simp only [rqt, List.mem_cons, List.not_mem_nil, or_false] at hg
  subst hg
  exact ⟨[{1}, {2}, {3}, {4}], [], k, [], rfl, rfl, rfl, fun _ => Or.inl hk, by decide, by simp⟩

/-! ## C04 : only free resources -/

/-- **C04.** When a (plain) waiting job is assigned resources, they are non-empty, the window lies in the timeline and
each resource was free at every second of the window. This holds with or without quotas (with a quotas calendar: for
jobs with one alternative, cf. `Stable`). -/
theorem assigned_resources_free (ctx ctx' : Ctx) (ss ss' : SlotSet) (job job' : Job) (hy : Hy) (minStart : Int)
    (hp : Plain job) (hss : SetOk ss) (hst : ctx.cal = none ∨ job.mlds.length ≤ 1)
    (h : assign ctx ss job hy minStart = some (ctx', ss', job')) (R : ProcSet) (w : Int)
    (hR : job'.resSet = some R) (hne : R ≠ ∅) (hw : job'.walltime = some w) :
    0 < w ∧ ss.begin_ ≤ job'.startTime ∧ job'.startTime + w - 1 ≤ ss.end_ ∧
      ∀ x ∈ R, ∀ t, job'.startTime ≤ t → t < job'.startTime + w → Free ss t x ∧ ¬ Free ss' t x := by
  have hstab : Stable ctx job.mlds none := by
    rcases hst with h1 | h1
    · exact Or.inl h1
    · exact Or.inr ⟨h1, rfl⟩
  obtain ⟨_, _, _, _, _, _, ha⟩ := assign_spec hp hss.1 hss.2.1 hss.2.2 hstab h
  cases ha with
  | no hj hf =>
    rw [hj] at hR
    simp only [Option.some.injEq] at hR
    exact absurd hR.symm hne
  | yes m R' t0 extra hm hw' hj hans hf =>
    rw [hj] at hR hw ⊢
    simp only [Option.some.injEq] at hR hw
    subst hR; subst hw
    refine ⟨hw', hans.lo, hans.hi, fun x hx t t1 t2 => ⟨hans.free x hx t t1 t2, fun hfr => ?_⟩⟩
    exact ((hf t x).1 hfr).2 ⟨hx, t1, Or.inl t2⟩

/-- C04, C05. The resources given have the shape requested: they are what the hierarchical search (properties C05 and
C06) answers on the resources free during the whole window. -/
theorem assigned_resources_shape (ctx ctx' : Ctx) (ss ss' : SlotSet) (job job' : Job) (hy : Hy) (minStart : Int)
    (hp : Plain job) (hss : SetOk ss) (hst : ctx.cal = none ∨ job.mlds.length ≤ 1)
    (h : assign ctx ss job hy minStart = some (ctx', ss', job')) (R : ProcSet)
    (hR : job'.resSet = some R) (hne : R ≠ ∅) :
    ∃ m ∈ job.mlds, job'.moldableId = m.id ∧ job'.walltime = some m.walltime ∧
      ∃ A : ProcSet, (∀ x, x ∈ A ↔ FreeDuring ss job'.startTime m.walltime x) ∧ findJob A m.groups hy = some R := by
  have hstab : Stable ctx job.mlds none := by
    rcases hst with h1 | h1
    · exact Or.inl h1
    · exact Or.inr ⟨h1, rfl⟩
  obtain ⟨_, _, _, _, _, _, ha⟩ := assign_spec hp hss.1 hss.2.1 hss.2.2 hstab h
  cases ha with
  | no hj hf =>
    rw [hj] at hR
    simp only [Option.some.injEq] at hR
    exact absurd hR.symm hne
  | yes m R' t0 extra hm hw' hj hans hf =>
    rw [hj] at hR ⊢
    simp only [Option.some.injEq] at hR
    subst hR
    exact ⟨m, hm, rfl, rfl, hans.shape⟩

-- the hypotheses on a platform partially occupied by job A: a job of three nodes starts when A ends
example : ((ss0.splitJobs ctx0 [jobA] true).bind (fun ss => assign ctx0 ss (wjob 7 3 15) hy4 (-1))).map
    (fun x => (x.2.2.startTime, x.2.2.walltime, x.2.2.resSet)) = some (20, some 15, some {1, 2, 3}) := by decide

/-! ## C08 : first fit -/

/-- **C08.** When the search grants a request at a slot, the request could not start at any earlier date (any date from
the minimal start if there is one); when it refuses, it can start at no date. A date is feasible when the resources free
during the whole walltime window from this date satisfy the request. Hypotheses: a plain job, on which quotas are not
applied, a valid cache (see C07) and well-formed groups. -/
theorem first_fit (ctx ctx' : Ctx) (ss ss' : SlotSet) (job : Job) (m : Mld) (hy : Hy) (minStart : Int) (dec : Decode)
    (hnq : NoQuotas ctx job) (hp : Plain job) (hwf : WF ss) (hco : CacheOk dec hy ss) (hk : KeyOk dec job)
    (hm : m ∈ job.mlds) (hok : ∀ g ∈ m.groups, GroupOk hy g) (res : Option (ProcSet × Nat × Nat))
    (h : findFirst ctx ss job m hy minStart = some (ctx', ss', res)) :
    (res = none → ∀ t, (minStart < 0 ∨ minStart ≤ t) → ¬ Feasible ss hy m.groups m.walltime t) ∧
    ∀ R l r, res = some (R, l, r) → ∃ s ∈ ss.slots, s.id = l ∧ Feasible ss hy m.groups m.walltime s.b ∧
      ∀ t, (minStart < 0 ∨ minStart ≤ t) → t < s.b → ¬ Feasible ss hy m.groups m.walltime t := by
  rw [findFirst_noQuotas hnq] at h
  simp only [Option.map_eq_some_iff, Prod.mk.injEq] at h
  obtain ⟨⟨ss1, res1⟩, hf, rfl, rfl, rfl⟩ := h
  obtain ⟨_, _, hff, _⟩ := findNoQuotas_firstFit hwf hco hp hm hk hok hf
  refine ⟨hff.1, fun R l r e => ?_⟩
  obtain ⟨s, h1, h2, h3, h4⟩ := hff.2 R l r e
  refine ⟨s, h1, h2, ?_, h4⟩
  obtain ⟨A, hA, hj⟩ := h3.shape
  refine ⟨A, hA, ?_⟩
  obtain ⟨r', e1, e2⟩ := findJob_sat A hy m.groups hok
  rw [hj, Option.some.injEq] at e1
  subst e1
  exact e2.1 h3.ne

/-- C08. The search never raises on such inputs: either the job has no cache key or it has one for the request. -/
theorem search_total (ctx : Ctx) (ss : SlotSet) (job : Job) (m : Mld) (hy : Hy) (minStart : Int)
    (hnq : NoQuotas ctx job) (hp : Plain job) (hss : SetOk ss) (hw : 0 < m.walltime)
    (hkey : job.keyCache = [] ∨ (job.keyCache.lookup m.id).isSome) (hok : ∀ g ∈ m.groups, GroupOk hy g) :
    (findFirst ctx ss job m hy minStart).isSome := by
  rw [findFirst_noQuotas hnq]
  obtain ⟨⟨c, hc⟩, hci, _⟩ := hss
  have hstart : ∃ sid, searchStart ss job m minStart = some sid := by
    unfold searchStart
    cases hcc : c with
    | nil => exact absurd hcc hc.ne
    | cons f r =>
      rw [hcc] at hc
      rw [hc.first]
      dsimp only
      split
      · split
        · exact ⟨_, rfl⟩
        · rename_i hne
          rcases hkey with hk | hk
          · rw [hk] at hne; simp at hne
          · obtain ⟨k, hk⟩ := Option.isSome_iff_exists.1 hk
            rw [hk]
            exact ⟨_, rfl⟩
      · rcases slotIdAt_spec hc minStart with ⟨_, _, x, _, h4, _⟩ | ⟨_, h2⟩
        · exact ⟨_, h4⟩
        · exact ⟨_, h2⟩
  obtain ⟨sid, hsid⟩ := hstart
  obtain ⟨l, s, r, e, hst, htw, _⟩ := searchStart_spec hc hci hsid _ hw
  obtain ⟨res, hres⟩ := searchLoop_total hc hp hw hok (s :: r) l e
  unfold findNoQuotas
  rw [hsid]
  dsimp only
  rw [htw]
  dsimp only
  rw [hres]
  cases res with
  | none => rfl
  | some y =>
    obtain ⟨R, a, b⟩ := y
    dsimp only
    split
    · rename_i hkc
      rcases hkey with hk | hk
      · rw [hk] at hkc; simp at hkc
      · obtain ⟨k, hk⟩ := Option.isSome_iff_exists.1 hk
        rw [hk]
        rfl
    · rfl

-- a request for three nodes cannot start before date 20
example : ((ss0.splitJobs ctx0 [jobA] true).bind (fun ss => findFirst ctx0 ss (wjob 7 3 15) (rqt 7 3 15) hy4 (-1))).map
    (fun x => x.2.2) = some (some ({1, 2, 3}, 3, 3)) := by decide
example : NoQuotas ctx0 (wjob 7 3 15) ∧ Plain (wjob 7 3 15) ∧ CacheOk decNone hy4 ss0 ∧ KeyOk decNone (wjob 7 3 15) ∧
    rqt 7 3 15 ∈ (wjob 7 3 15).mlds :=
  ⟨by simp [NoQuotas, ctx0], ⟨rfl, by decide⟩, cacheOk_nil _ _ rfl, fun m _ k hk => by simp [wjob] at hk, by simp [wjob]⟩

/-! ## C09 : the alternative that ends first -/

/-- **C09.** Quotas not applied, no dependency. Either the job is left unscheduled, the slots untouched, and no
alternative is feasible at any date; or an alternative `m` is chosen at a feasible date such that no alternative
could end earlier at any date, and those listed before `m` could not even end at the same date. -/
theorem moldable_earliest (ctx ctx' : Ctx) (ss ss' : SlotSet) (job job' : Job) (hy : Hy) (minStart : Int) (dec : Decode)
    (hnq : NoQuotas ctx job) (hp : Plain job) (hss : SetOk ss) (hco : CacheOk dec hy ss) (hk : KeyOk dec job)
    (hok : ∀ m ∈ job.mlds, ∀ g ∈ m.groups, GroupOk hy g)
    (hmin : minStart < 0) (h : assign ctx ss job hy minStart = some (ctx', ss', job')) :
    (job'.startTime = -1 ∧ job'.resSet = some ∅ ∧ job'.moldableId = -1 ∧ ss'.slots = ss.slots ∧
      ∀ m ∈ job.mlds, ∀ t, ¬ Feasible ss hy m.groups m.walltime t) ∨
    ∃ pre m post, job.mlds = pre ++ m :: post ∧ job'.moldableId = m.id ∧ job'.walltime = some m.walltime ∧
      (∃ R, job'.resSet = some R ∧ R ≠ ∅) ∧ Feasible ss hy m.groups m.walltime job'.startTime ∧
      (∀ m' ∈ job.mlds, ∀ t, Feasible ss hy m'.groups m'.walltime t →
        job'.startTime + m.walltime ≤ t + m'.walltime) ∧
      (∀ m' ∈ pre, ∀ t, Feasible ss hy m'.groups m'.walltime t → job'.startTime + m.walltime < t + m'.walltime) := by
  rcases assign_opt hp hk hok hnq hss.1 hco hss.2.2 h with ⟨h1, h2, h3⟩ | ⟨pre, m, post, h1, h2, h3, h4, h5, R, h6, h7⟩
  · left
    rw [h1]
    exact ⟨rfl, rfl, rfl, h2.1, fun m hm t => h3 m hm t (Or.inl hmin)⟩
  · right
    have hany : ∀ x ∈ job.mlds, ∀ t, Feasible ss hy x.groups x.walltime t →
        job'.startTime + m.walltime ≤ t + x.walltime := by
      intro x hx t hf
      rw [h1, List.mem_append] at hx
      rcases hx with hx | hx
      · have := h4 x hx t (Or.inl hmin) hf; omega
      · have := h5 x hx t (Or.inl hmin) hf; omega
    refine ⟨pre, m, post, h1, h2, h3, ⟨R, h6, h7.ne⟩, ?_, hany, ?_⟩
    · obtain ⟨A, hA, hj⟩ := h7.shape
      refine ⟨A, hA, ?_⟩
      obtain ⟨r', g1, g2⟩ := findJob_sat A hy m.groups (hok m (by rw [h1]; simp))
      rw [hj, Option.some.injEq] at g1
      subst g1
      exact g2.1 h7.ne
    · intro x hx t hf
      have := h4 x hx t (Or.inl hmin) hf
      omega

/-- A job with two alternatives: four nodes during 15, or one node during 12. When nodes 1 and 2 are busy in [10, 20),
the second one ends first (at 12, instead of 35) although it is listed last. -/
def mjob : Job := { id := 8, mlds := [rqt 80 4 15, rqt 81 1 12] }
example : ((ss0.splitJobs ctx0 [jobA] true).bind (fun ss => assign ctx0 ss mjob hy4 (-1))).map
    (fun x => (x.2.2.startTime, x.2.2.moldableId, x.2.2.resSet)) = some (0, 81, some {3}) := by decide
example : NoQuotas ctx0 mjob ∧ Plain mjob ∧ SetOk ss0 ∧ CacheOk decNone hy4 ss0 ∧ KeyOk decNone mjob ∧
    (∀ m ∈ mjob.mlds, ∀ g ∈ m.groups, GroupOk hy4 g) :=
  ⟨by simp [NoQuotas, ctx0], ⟨rfl, by decide⟩, ss0_ok, cacheOk_nil _ _ rfl, fun m _ k hk => by simp [mjob] at hk,
    fun m hm => by
      simp only [mjob, List.mem_cons, List.not_mem_nil, or_false] at hm
      rcases hm with rfl | rfl
      · exact rqt_ok _ _ _ (by decide)
      · exact rqt_ok _ _ _ (by decide)⟩

/-! ## C03 : no double allocation -/

/-- The job holds the resources `R` at date `t`. -/
def Holds (a : Job) (R : ProcSet) (t : Int) : Prop :=
  a.resSet = some R ∧ ∃ w, a.walltime = some w ∧ a.startTime ≤ t ∧ t < a.startTime + w

/-- **C03.** A pass over a list of distinct waiting jobs; `n` is a slot set (the platform "default", or an already open
container) which no job of the pass opens again as a container. Two distinct jobs placed in this slot set never hold a
common resource at the same date, and what they hold was free before the pass. -/
theorem no_double_allocation_partial (hy : Hy) (sec : Int) (st st' : Sched) (jids : List Nat) (n : String) (s0 : SlotSet)
    (hset : st.sets.lookup n = some s0) (hok : SetOk s0) (hnd : jids.Nodup)
    (hjobs : ∀ i ∈ jids, ∀ job, st.job? i = some job → Fresh n job)
    (hst : st.ctx.cal = none ∨ ∀ i ∈ jids, ∀ job, st.job? i = some job → job.mlds.length ≤ 1)
    (h : schedule hy sec jids st = some st') :
    (∀ i ∈ jids, ∀ j ∈ jids, i ≠ j → ∀ a b, st'.job? i = some a → st'.job? j = some b → a.setName = n →
      b.setName = n → ∀ Ra Rb t, Holds a Ra t → Holds b Rb t → Disjoint Ra Rb) ∧
    (∀ i ∈ jids, ∀ a, st'.job? i = some a → a.setName = n → ∀ R t, Holds a R t → ∀ x ∈ R, Free s0 t x) := by
  obtain ⟨ids', hmem, hinv⟩ := schedule_inv (n := n) (s0 := s0) jids [] st st'
    ⟨⟨s0, hset, hok, rfl, rfl, fun _ _ h => h, by simp⟩, by simp⟩ hnd (by simp) hjobs hst h
  constructor
  · rintro i hi j hj hij a b ha hb na nb Ra Rb t ⟨r1, w1, e1, t1, t2⟩ ⟨r2, w2, e2, t3, t4⟩
    exact hinv.pair i ((hmem i).2 (Or.inl hi)) j ((hmem j).2 (Or.inl hj)) hij a b ha hb na nb _ _ _ _ e1 e2 r1 r2 t
      t1 t2 t3 t4
  · rintro i hi a ha na R t ⟨r1, w1, e1, t1, t2⟩ x hx
    obtain ⟨ss, _, _, _, _, _, hz⟩ := hinv.set_
    exact (hz i ((hmem i).2 (Or.inl hi)) a ha na w1 R e1 r1 x hx t t1 t2).2

/-- Three waiting jobs. -/
def st3 : Sched := ⟨ctx0, [("default", ss0)], [wjob 1 3 10, wjob 2 2 10, wjob 3 1 30]⟩

example : (schedule hy4 0 [1, 2, 3] st3).map (fun s => s.jobs.map (fun j => (j.startTime, j.resSet))) =
    some [(0, some {1, 2, 3}), (10, some {1, 2}), (0, some {4})] := by decide
example : st3.sets.lookup "default" = some ss0 ∧ SetOk ss0 ∧ st3.ctx.cal = none ∧
    ∀ i ∈ [1, 2, 3], ∀ job, st3.job? i = some job → Fresh "default" job := by
  refine ⟨by decide, ss0_ok, rfl, ?_⟩
  have key : ∀ id k w, Fresh "default" (wjob id k w) := fun id k w =>
    ⟨⟨rfl, by simp [wjob]⟩, rfl, by rintro ⟨v, hv, _⟩; simp [wjob] at hv⟩
  intro i hi job hj
  simp only [List.mem_cons, List.not_mem_nil, or_false] at hi
  rcases hi with rfl | rfl | rfl <;> simp [st3, Sched.job?, wjob] at hj <;> subst hj <;> exact key _ _ _

/-- A container job whose label is "default". -/
def cdef : Job := { wjob 1 3 10 with types := [("container", "default")] }
def stc : Sched := ⟨ctx0, [("default", ss0)], [cdef, wjob 2 2 5]⟩

/-- **C03, the excluded case.** A user can label a container "default": its resources are given back to the platform,
and a job outside the container receives them at the same time. -/
theorem no_double_allocation_violated : ∃ st', schedule hy4 0 [1, 2] stc = some st' ∧
    ∃ a b, st'.job? 1 = some a ∧ st'.job? 2 = some b ∧ a.setName = "default" ∧ b.setName = "default" ∧
      Holds a {1, 2, 3} 0 ∧ Holds b {1, 2} 0 := by
  refine ⟨_, rfl, _, _, rfl, rfl, rfl, rfl, ⟨by decide, 10, by decide, by decide, by decide⟩,
    ⟨by decide, 5, by decide, by decide, by decide⟩⟩


/-! ## C07 : the search cache -/

/-- **C07.** With a valid cache the search answers the same resources and the same first slot as without cache. -/
theorem cache_transparent (ctx c1 c2 : Ctx) (ss s1 s2 : SlotSet) (job : Job) (m : Mld) (hy : Hy) (dec : Decode)
    (hnq : NoQuotas ctx job) (hp : Plain job) (hwf : WF ss) (hco : CacheOk dec hy ss) (hk : KeyOk dec job)
    (hm : m ∈ job.mlds) (hok : ∀ g ∈ m.groups, GroupOk hy g) (r1 r2 : Option (ProcSet × Nat × Nat))
    (h1 : findFirst ctx ss job m hy (-1) = some (c1, s1, r1))
    (h2 : findFirst ctx { ss with cache := [] } job m hy (-1) = some (c2, s2, r2)) :
    r1.map (fun x => (x.1, x.2.1)) = r2.map (fun x => (x.1, x.2.1)) := by
  rw [findFirst_noQuotas hnq] at h1 h2
  simp only [Option.map_eq_some_iff, Prod.mk.injEq] at h1 h2
  obtain ⟨⟨_, _⟩, hf1, rfl, rfl, rfl⟩ := h1
  obtain ⟨⟨_, _⟩, hf2, _, rfl, rfl⟩ := h2
  obtain ⟨_, _, g1, _⟩ := findNoQuotas_firstFit hwf hco hp hm hk hok hf1
  have hwf2 : WF { ss with cache := [] } := by
    obtain ⟨c, hc⟩ := hwf
    exact ⟨c, SameSlots.part (ss := ss) ⟨rfl, rfl, rfl, rfl⟩ hc⟩
  obtain ⟨_, _, g2, _⟩ := findNoQuotas_firstFit hwf2 (cacheOk_nil dec hy rfl) hp hm hk hok hf2
  have hfe : ∀ t, Feasible { ss with cache := [] } hy m.groups m.walltime t ↔ Feasible ss hy m.groups m.walltime t :=
    fun t => Iff.rfl
  have hss : SameSlots ss { ss with cache := [] } := ⟨rfl, rfl, rfl, rfl⟩
  refine firstFit_unique hwf hok g1 ⟨fun e t ht => g2.1 e t ht, fun R a b e => ?_⟩ (by decide)
  obtain ⟨s, k1, k2, k3, k4⟩ := g2.2 R a b e
  exact ⟨s, k1, k2, (sameSlots_answers hss).1 k3, k4⟩

/-- **C07.** A pass keeps the cache of a slot set valid (`CacheOk`: no entry points after a date at which its request is
feasible), whatever the jobs scheduled in between, provided no job of the pass opens this slot set as a container. -/
theorem cache_valid_partial (n : String) (hy : Hy) (sec : Int) (dec : Decode) (jids : List Nat) (st st' : Sched)
    (s0 : SlotSet) (hl : st.sets.lookup n = some s0) (hok : SetOk s0) (hco : CacheOk dec hy s0) (hnd : jids.Nodup)
    (hjobs : ∀ i ∈ jids, ∀ job, st.job? i = some job → Fresh n job ∧ KeyOk dec job ∧
      ∀ m ∈ job.mlds, ∀ g ∈ m.groups, GroupOk hy g)
    (hst : st.ctx.cal = none ∨ ∀ i ∈ jids, ∀ job, st.job? i = some job → job.mlds.length ≤ 1)
    (h : schedule hy sec jids st = some st') :
    ∃ s1, st'.sets.lookup n = some s1 ∧ SetOk s1 ∧ CacheOk dec hy s1 := by
  obtain ⟨s1, k1, k2, k3, k4, k5⟩ := schedule_cache jids st st' s0 hl hok.1 hok.2.2 hco hnd hjobs hst h
  exact ⟨s1, k1, ⟨k2, k5.ids, by rw [k4]; exact hok.2.2⟩, k5⟩

/-- A job with a cache key for its single request. -/
def kjob (id : Nat) (k w : Int) (key : String) : Job := { wjob id k w with keyCache := [(id, key)] }

/-- Two jobs with the same key. -/
def stk : Sched := ⟨ctx0, [("default", ss0)], [kjob 1 3 10 "K", kjob 2 3 10 "K"]⟩
def decK : Decode := fun _ => (10, [⟨[("node", 3)], {1, 2, 3, 4}⟩])

-- after the pass the cache designates the slot where the second request was placed
example : (schedule hy4 0 [1, 2] stk).map (fun s => s.sets.map (fun x => x.2.cache)) = some [[("K", 2)]] ∧
    (schedule hy4 0 [1, 2] stk).map (fun s => s.jobs.map (fun j => j.startTime)) = some [0, 10] := by decide
example : SetOk ss0 ∧ CacheOk decK hy4 ss0 ∧ ∀ i ∈ [1, 2], ∀ job, stk.job? i = some job → Fresh "default" job ∧
    KeyOk decK job ∧ ∀ m ∈ job.mlds, ∀ g ∈ m.groups, GroupOk hy4 g := by
  refine ⟨ss0_ok, cacheOk_nil _ _ rfl, ?_⟩
  have key : ∀ id, Fresh "default" (kjob id 3 10 "K") ∧ KeyOk decK (kjob id 3 10 "K") ∧
      ∀ m ∈ (kjob id 3 10 "K").mlds, ∀ g ∈ m.groups, GroupOk hy4 g := fun id =>
    ⟨⟨⟨rfl, by simp [kjob, wjob]⟩, rfl, by rintro ⟨v, hv, _⟩; simp [kjob, wjob] at hv⟩,
      fun m hm k hk => by
        simp only [kjob, wjob, List.mem_cons, List.not_mem_nil, or_false] at hm
        subst hm
        rfl,
      fun m hm => by
        simp only [kjob, wjob, List.mem_cons, List.not_mem_nil, or_false] at hm
        subst hm
        exact rqt_ok _ _ _ (by decide)⟩
  intro i hi job hj
  simp only [List.mem_cons, List.not_mem_nil, or_false] at hi
  rcases hi with rfl | rfl <;> simp [stk, Sched.job?, kjob, wjob] at hj <;> subst hj
  · exact key 1
  · exact key 2

/-- Containers 1 and 4 share the label "c"; jobs 2, 3 and 5 are inner jobs with the same request. -/
def cont (id : Nat) (k w : Int) : Job := { wjob id k w with types := [("container", "c")] }
def inner (id : Nat) (k w : Int) (key : String) : Job := { kjob id k w key with types := [("inner", "c")] }
def stcc : Sched := ⟨ctx0, [("default", ss0)], [cont 1 2 100, inner 2 2 10 "K", inner 3 2 10 "K", cont 4 2 100,
  inner 5 2 10 "K"]⟩

/-- The same pass where the jobs have no cache key. -/
def stcn : Sched := ⟨ctx0, [("default", ss0)], [cont 1 2 100, { inner 2 2 10 "K" with keyCache := [] },
  { inner 3 2 10 "K" with keyCache := [] }, cont 4 2 100, { inner 5 2 10 "K" with keyCache := [] }]⟩

/-- **C07, violated.** When a second container with the same label adds resources, the cache is not reset: job 5 is
placed at date 10 whereas it can start at date 0 (and does without the cache). -/
theorem cache_stale_violated :
    (schedule hy4 0 [1, 2, 3, 4, 5] stcc).map (fun s => (s.job? 5).map Job.startTime) = some (some 10) ∧
    (schedule hy4 0 [1, 2, 3, 4, 5] stcn).map (fun s => (s.job? 5).map Job.startTime) = some (some 0) := by decide

/-! ## C10 : dependencies -/

/-- **C10, second clause.** A job with a dependency that is neither in error, nor a waiting job of the pass, nor
terminated with exit code 0 (or none), is not scheduled in this pass: its start becomes -1, and nothing else changes. -/
theorem dependency_blocks (hy : Hy) (sec : Int) (st : Sched) (jid : Nat) (job : Job) (hj : st.job? jid = some job)
    (d : Dep) (hd : d ∈ job.deps) (h1 : d.state ≠ "Error") (h2 : d.state = "Waiting" → st.job? d.jid = none)
    (h3 : d.state = "Terminated" → ∃ c, d.exitCode = some c ∧ c ≠ 0) :
    scheduleOne hy sec st jid = some (st.setJob { job with startTime := -1 }) := by
  have hnone : depsLoop st job.deps (-1) = none := by
    rw [depsLoop_none]
    refine ⟨d, hd, h1, ?_, ?_⟩
    · rintro ⟨e, hs⟩
      rw [h2 e] at hs
      simp at hs
    · rintro ⟨e, hc⟩
      obtain ⟨c, e1, e2⟩ := h3 e
      rw [e1] at hc
      simp [e2] at hc
  unfold scheduleOne
  rw [hj]
  dsimp only
  rw [hnone]

-- a dependency still running, one which failed
example : (schedule hy4 0 [1] ⟨ctx0, [("default", ss0)], [{ wjob 1 1 5 with deps := [⟨9, "Running", none⟩] }]⟩).map
    (fun s => s.jobs.map (fun j => (j.startTime, j.resSet))) = some [(-1, none)] := by decide
example : (schedule hy4 0 [1] ⟨ctx0, [("default", ss0)], [{ wjob 1 1 5 with deps := [⟨9, "Terminated", some 256⟩] }]⟩).map
    (fun s => s.jobs.map (fun j => (j.startTime, j.resSet))) = some [(-1, none)] := by decide

/-- **C10, first clause, partial.** One slot set `n` without calendar, all dates of its timeline and all walltimes on a
grid of step `g ≥ 2` seconds. If every waiting dependency of job `j` was treated before `j` in the pass, in the same
slot set, and was given resources until a date before the end of the timeline, then `j` is not scheduled or starts after
the end of each of them. Missing: timelines without such a grid (boundary case), dependencies which could not be
scheduled or that are placed in another slot set. -/
theorem dependency_respected_partial (hy : Hy) (sec : Int) (st st' : Sched) (pre post : List Nat) (j : Nat) (jobj : Job)
    (n : String) (s0 : SlotSet) (g : Int) (hg : 2 ≤ g) (hset : st.sets.lookup n = some s0) (hok : SetOk s0)
    (hpos : 0 ≤ s0.begin_) (hcal : st.ctx.cal = none) (hgrid : ∀ s ∈ s0.slots, g ∣ s.b - s0.begin_)
    (hnd : (pre ++ j :: post).Nodup)
    (hjobs : ∀ i ∈ pre ++ j :: post, ∀ job, st.job? i = some job → Fresh n job ∧ ∀ m ∈ job.mlds, g ∣ m.walltime)
    (hj : st.job? j = some jobj) (hjn : jobj.setName = n) (h : schedule hy sec (pre ++ j :: post) st = some st')
    (hdeps : ∀ d ∈ jobj.deps, d.state = "Waiting" → d.jid ∈ pre ∧ ∀ a, st'.job? d.jid = some a → a.setName = n ∧
      ∃ w R, a.walltime = some w ∧ a.resSet = some R ∧ R ≠ ∅ ∧ a.startTime + w < s0.end_) :
    ∃ b, st'.job? j = some b ∧ (b.startTime = -1 ∨ ∀ d ∈ jobj.deps, d.state = "Waiting" →
      ∀ a w, st'.job? d.jid = some a → a.walltime = some w → a.startTime + w ≤ b.startTime) := by
  rw [schedule_append] at h
  cases h1 : schedule hy sec pre st with
  | none => rw [h1] at h; simp at h
  | some st1 =>
    rw [h1] at h
    simp only [Option.bind_some] at h
    unfold schedule at h
    cases h2 : scheduleOne hy sec st1 j with
    | none => rw [h2] at h; simp at h
    | some st2 =>
      rw [h2] at h
      dsimp only at h
      rw [List.nodup_append] at hnd
      obtain ⟨hnp, hnj, hdis⟩ := hnd
      rw [List.nodup_cons] at hnj
      have hjpre : j ∉ pre := fun hm => hdis j hm j (by simp) rfl
      have hinv0 : GridInv n g s0.begin_ [] st := ⟨hcal, s0, hset, hok, rfl, hgrid, by simp⟩
      obtain ⟨ids, hids, hinv⟩ := gridInv_schedule hg pre [] st st1 hinv0 hnp (by simp)
        (fun i hi => hjobs i (by simp [hi])) h1
      obtain ⟨ids2, _, hpinv⟩ := schedule_inv (n := n) (s0 := s0) pre [] st st1
        ⟨⟨s0, hset, hok, rfl, rfl, fun _ _ h => h, by simp⟩, by simp⟩ hnp (by simp)
        (fun i hi job hji => (hjobs i (by simp [hi]) job hji).1) (Or.inl hcal) h1
      obtain ⟨ssp, p1, _, p3, p4, _⟩ := hpinv.set_
      obtain ⟨hcal1, ss, hl, hok1, hbg, hgr, hall⟩ := hinv
      rw [hl, Option.some.injEq] at p1
      subst p1
      have hj1 : st1.job? j = some jobj := by rw [schedule_job? pre st st1 j hjpre h1]; exact hj
      have hst'j : st'.job? j = st2.job? j := schedule_job? post st2 st' j hnj.1 h
      have hst'pre : ∀ i ∈ pre, st'.job? i = st1.job? i := by
        intro i hi
        have hij : i ≠ j := fun e => hjpre (e ▸ hi)
        have hip : i ∉ post := fun hm => hdis i hi i (List.mem_cons_of_mem _ hm) rfl
        rw [schedule_job? post st2 st' i hip h, scheduleOne_job? h2 hij]
      obtain ⟨job, hj', hid, hcase⟩ := scheduleOne_cases h2
      rw [hj1, Option.some.injEq] at hj'
      subst hj'
      have hfr := (hjobs j (by simp) jobj hj).1
      rw [hst'j]
      rcases hcase with ⟨_, hst2⟩ | ⟨minStart, ssj, ctx', ss', job', ctx'', sets', hdl, hlj, ha, ho, hst2⟩
      · refine ⟨{ jobj with startTime := -1 }, ?_, Or.inl rfl⟩
        rw [hst2, job?_setJob, if_pos hid.symm, hj1]
        rfl
      · obtain ⟨s1, s2, _⟩ := assign_static ha
        refine ⟨job', ?_, ?_⟩
        · rw [hst2, job?_setJob_ctx, job?_setJob, if_pos (s1.trans hid).symm, hj1]
          rfl
        · rw [hjn, hl, Option.some.injEq] at hlj
          subst hlj
          obtain ⟨_, hdl2, hdl3⟩ := depsLoop_spec _ _ _ hdl
          -- the waiting dependencies as they are at this point
          have hwd : ∀ d ∈ jobj.deps, d.state = "Waiting" → ∀ a, st1.job? d.jid = some a →
              ∃ w, a.walltime = some w ∧ ss.begin_ ≤ a.startTime ∧ 0 < w ∧ Bnd ss (a.startTime + w) := by
            intro d hd hw a haj
            obtain ⟨q1, q2⟩ := hdeps d hd hw
            obtain ⟨q3, w, R, q4, q5, q6, q7⟩ := q2 a (by rw [hst'pre _ q1]; exact haj)
            obtain ⟨u1, u2, u3⟩ := hall d.jid ((hids _).2 (Or.inl q1)) a haj q3 w R q4 q5 q6
            exact ⟨w, q4, u1, u2, u3 (by rw [p4]; exact q7)⟩
          by_cases hex : ∃ d ∈ jobj.deps, d.state = "Waiting"
          · obtain ⟨d0, hd0, hw0⟩ := hex
            have hmin : ∃ d ∈ jobj.deps, d.state = "Waiting" ∧ ∃ jd, st1.job? d.jid = some jd ∧
                minStart = jd.startTime + jd.walltime.getD 0 := by
              rcases hdl3 with e | e
              · exfalso
                rcases hdl2 d0 hd0 with q | ⟨_, jd, k1, k2⟩ | ⟨q, _⟩
                · rw [hw0] at q; simp at q
                · obtain ⟨w, v1, v2, v3, _⟩ := hwd d0 hd0 hw0 jd k1
                  rw [v1] at k2
                  simp only [Option.getD_some] at k2
                  omega
                · rw [hw0] at q; simp at q
              · exact e
            obtain ⟨d, hd, hw, jd, k1, k2⟩ := hmin
            obtain ⟨w, v1, v2, v3, v4⟩ := hwd d hd hw jd k1
            rw [v1] at k2
            simp only [Option.getD_some] at k2
            rcases assign_low hfr.plain (by omega) hok1.1 hok1.2.1 (k2 ▸ v4) ha with e | hlow
            · left; rw [e]
            · right
              intro d' hd' hw' a w' haj haw
              have hdpre := (hdeps d' hd' hw').1
              rw [hst'pre _ hdpre] at haj
              rcases hdl2 d' hd' with q | ⟨_, jd', k3, k4⟩ | ⟨q, _⟩
              · rw [hw'] at q; simp at q
              · rw [haj, Option.some.injEq] at k3
                subst k3
                rw [haw] at k4
                simp only [Option.getD_some] at k4
                omega
              · rw [hw'] at q; simp at q
          · right
            intro d hd hw
            exact absurd ⟨d, hd, hw⟩ hex

/-- Job 2 depends on job 1 and job 3 on both. -/
def std : Sched := ⟨ctx0, [("default", ss0)], [wjob 1 3 10, { wjob 2 1 20 with deps := [⟨1, "Waiting", none⟩] },
  { wjob 3 1 10 with deps := [⟨1, "Waiting", none⟩, ⟨2, "Waiting", none⟩] }]⟩

example : (schedule hy4 0 [1, 2, 3] std).map (fun s => s.jobs.map (fun j => j.startTime)) = some [0, 10, 30] := by decide

-- the hypotheses of `dependency_respected_partial` for job 3 with a grid of 10 s
example : SetOk ss0 ∧ 0 ≤ ss0.begin_ ∧ (∀ s ∈ ss0.slots, (10 : Int) ∣ s.b - ss0.begin_) ∧
    ∀ i ∈ [1, 2, 3], ∀ job, std.job? i = some job → Fresh "default" job ∧ ∀ m ∈ job.mlds, (10 : Int) ∣ m.walltime := by
  refine ⟨ss0_ok, by decide, by decide, ?_⟩
  have key : ∀ id k w ds, (10 : Int) ∣ w → Fresh "default" { wjob id k w with deps := ds } ∧
      ∀ m ∈ ({ wjob id k w with deps := ds } : Job).mlds, (10 : Int) ∣ m.walltime := fun id k w ds hw =>
    ⟨⟨⟨rfl, by simp [wjob]⟩, rfl, by rintro ⟨v, hv, _⟩; simp [wjob] at hv⟩, by simpa [wjob, rqt] using hw⟩
  intro i hi job hj
  simp only [List.mem_cons, List.not_mem_nil, or_false] at hi
  rcases hi with rfl | rfl | rfl <;> simp [std, Sched.job?, wjob] at hj <;> subst hj
  · exact key 1 3 10 [] (by decide)
  · exact key 2 1 20 _ (by decide)
  · exact key 3 1 10 _ (by decide)

/-- A reservation that begins at 11: the first slot is then `[0, 10]`. -/
def jobR : Job := { id := 90, startTime := 11, walltime := some 5, resSet := some {4} }

/-- Job 1 takes `[0, 10)`; job 2 depends on it. -/
def stb : Option Sched := (ss0.splitJobs ctx0 [jobR] true).map (fun ss => ⟨ctx0, [("default", ss)],
  [wjob 1 2 10, { wjob 2 1 5 with deps := [⟨1, "Waiting", none⟩] }]⟩)

/-- **C10, violated (boundary).** Job 2 depends on job 1, which ends at date 10, and is started at date 0. -/
theorem dependency_boundary_violated :
    (stb.bind (schedule hy4 0 [1, 2])).map (fun s => s.jobs.map (fun j => (j.startTime, j.walltime, j.resSet))) =
      some [(0, some 10, some {1, 2}), (0, some 5, some {3})] := by decide

/-- **C10, violated (unscheduled dependency).** Job 1 asks for five nodes out of four and is not scheduled; job 2, which
depends on it, is nevertheless started at date 0. -/
theorem dependency_unscheduled_violated :
    (schedule hy4 0 [1, 2] ⟨ctx0, [("default", ss0)], [wjob 1 5 10,
      { wjob 2 1 5 with deps := [⟨1, "Waiting", none⟩] }]⟩).map
      (fun s => s.jobs.map (fun j => (j.startTime, j.resSet))) = some [(-1, some ∅), (0, some {1})] := by decide

/-! ## C13 : containers -/

/-- The slot set made of one slot. -/
def containerSet (ctx : Ctx) (R : ProcSet) (b e : Int) : SlotSet :=
  SlotSet.ofSlot { id := 1, prev := 0, next := 0, itvs := R, b := b, e := e, q := freshQuotas ctx }

theorem containerSet_wf (ctx : Ctx) (R : ProcSet) {b e : Int} (h : b ≤ e) : WF (containerSet ctx R b e) := by
  refine ⟨_, List.Perm.refl _, by simp [containerSet, SlotSet.ofSlot], by simp [containerSet, SlotSet.ofSlot],
    ?_, ?_, ?_⟩ <;>
    simp [containerSet, SlotSet.ofSlot, Linked, Tiled, h, hd]

theorem openContainer_new {ctx ctx' : Ctx} {sets sets' : List (String × SlotSet)} {job : Job} {sec w : Int} {R : ProcSet}
    {v : String} (hcal : ctx.cal = none) (hv : job.types.lookup "container" = some v) (hw : job.walltime = some w)
    (hR : job.resSet = some R) (hno : sets.lookup (job.containerName v) = none)
    (h : openContainer ctx sets job sec = some (ctx', sets')) :
    ctx' = ctx ∧ sets'.lookup (job.containerName v) = some (containerSet ctx R job.startTime (job.startTime + w - sec)) := by
  unfold openContainer at h
  rw [hv, hw, hR] at h
  dsimp only at h
  rw [hno] at h
  dsimp only at h
  unfold SlotSet.initCalendar at h
  rw [hcal] at h
  simp only [Option.some.injEq, Prod.mk.injEq] at h
  obtain ⟨h1, h2⟩ := h
  refine ⟨h1.symm, ?_⟩
  rw [← h2, lookup_dictSet, if_pos rfl]
  rfl

/-- **C13.** A container job `c` is scheduled by a pass on resources `Rc` at date `start` for `wc` seconds and opens a
new slot set `n`; then a list of jobs is scheduled. Each job placed in this slot set only holds resources of the
container, at dates between its start and its end minus the security time, and two such jobs never hold a common
resource at the same date. -/
theorem inner_jobs_inside_container (hy : Hy) (sec : Int) (st st1 st' : Sched) (cid : Nat) (jids : List Nat) (c : Job)
    (v n : String) (Rc : ProcSet) (wc : Int) (hcal : st.ctx.cal = none)
    (h1 : scheduleOne hy sec st cid = some st1) (hc : st1.job? cid = some c)
    (hv : c.types.lookup "container" = some v) (hn : c.containerName v = n) (hw : c.walltime = some wc)
    (hR : c.resSet = some Rc) (hset : st.sets.lookup n = none) (hself : c.setName ≠ n)
    (hnot : c.startTime ≠ -1) (hsec : sec ≤ wc) (hbound : c.startTime + wc - sec < largeEnough)
    (hnd : jids.Nodup) (hjobs : ∀ i ∈ jids, ∀ job, st1.job? i = some job → Fresh n job)
    (h : schedule hy sec jids st1 = some st') :
    (∀ i ∈ jids, ∀ a, st'.job? i = some a → a.setName = n → ∀ R t, Holds a R t →
      R ⊆ Rc ∧ (R ≠ ∅ → c.startTime ≤ t ∧ t ≤ c.startTime + wc - sec)) ∧
    (∀ i ∈ jids, ∀ j ∈ jids, i ≠ j → ∀ a b, st'.job? i = some a → st'.job? j = some b → a.setName = n →
      b.setName = n → ∀ Ra Rb t, Holds a Ra t → Holds b Rb t → Disjoint Ra Rb) := by
  obtain ⟨job, hj, hid, hcase⟩ := scheduleOne_cases h1
  have hs0 : st1.ctx.cal = none ∧ st1.sets.lookup n = some (containerSet st.ctx Rc c.startTime (c.startTime + wc - sec)) := by
    refine ⟨by rw [scheduleOne_cal h1 hcal]; exact hcal, ?_⟩
    rcases hcase with ⟨_, hst'⟩ | ⟨minStart, ssj, ctx', ss', job', ctx'', sets', _, hlj, ha, ho, hst'⟩
    · rw [hst', job?_setJob, if_pos hid.symm, hj] at hc
      simp only [Option.map_some, Option.some.injEq] at hc
      rw [← hc] at hnot
      simp at hnot
    · obtain ⟨s1, s2, _⟩ := assign_static ha
      rw [hst', job?_setJob_ctx, job?_setJob, if_pos (s1.trans hid).symm, hj] at hc
      simp only [Option.map_some, Option.some.injEq] at hc
      subst hc
      have e1 := assign_cal hcal ha
      subst e1
      have hne : n ≠ job.setName := by rw [← setName_congr s2]; exact hself.symm
      obtain ⟨_, k2⟩ := openContainer_new hcal hv hw hR (by rw [hn, lookup_dictSet, if_neg hne]; exact hset) ho
      rw [hst', ← hn]
      exact k2
  obtain ⟨hcal1, hl⟩ := hs0
  have hwf := containerSet_wf st.ctx Rc (b := c.startTime) (e := c.startTime + wc - sec) (by omega)
  have hok : SetOk (containerSet st.ctx Rc c.startTime (c.startTime + wc - sec)) :=
    ⟨hwf, fun k i hk => by simp [containerSet, SlotSet.ofSlot] at hk, hbound⟩
  obtain ⟨g1, g2⟩ := no_double_allocation_partial hy sec st1 st' jids n _ hl hok hnd hjobs (Or.inl hcal1) h
  refine ⟨?_, g1⟩
  intro i hi a ha hna R t hh
  have hf : ∀ x ∈ R, x ∈ Rc ∧ c.startTime ≤ t ∧ t ≤ c.startTime + wc - sec := by
    intro x hx
    obtain ⟨s, hs, k1, k2, k3⟩ := g2 i hi a ha hna R t hh x hx
    simp only [containerSet, SlotSet.ofSlot, List.mem_cons, List.not_mem_nil, or_false] at hs
    subst hs
    exact ⟨k3, k1, k2⟩
  refine ⟨fun x hx => (hf x hx).1, fun hne => ?_⟩
  obtain ⟨x, hx⟩ := Finset.nonempty_iff_ne_empty.2 hne
  exact (hf x hx).2

/-- A container of two nodes for 30 s and inner jobs. -/
def sti : Sched := ⟨ctx0, [("default", ss0)], [cont 1 2 30, { wjob 2 1 14 with types := [("inner", "c")] },
  { wjob 3 2 14 with types := [("inner", "c")] }, { wjob 4 1 14 with types := [("inner", "c")] },
  { wjob 5 1 30 with types := [("inner", "c")] }]⟩

-- the last inner job does not fit in the container
example : (schedule hy4 1 [1, 2, 3, 4, 5] sti).map (fun s => s.jobs.map (fun j => (j.startTime, j.resSet))) =
    some [(0, some {1, 2}), (0, some {1}), (14, some {1, 2}), (0, some {2}), (-1, some ∅)] := by decide
example : (scheduleOne hy4 1 sti 1).map (fun s => s.sets.map (fun x => x.1)) = some ["default", "c"] ∧
    ((scheduleOne hy4 1 sti 1).bind (fun s => s.job? 1)).map (fun c => (c.startTime, c.walltime)) = some (0, some 30) ∧
    ((scheduleOne hy4 1 sti 1).bind (fun s => s.job? 1)).map (fun c => (c.setName, c.resSet)) =
      some ("default", some {1, 2}) := by decide

/-- **C49, violated.** A container job that cannot be placed makes the whole pass fail (its walltime is never set), so
that the other jobs, here a job asking for one free node, are not scheduled either. -/
theorem unplaceable_container_aborts_violated :
    schedule hy4 0 [1, 2] ⟨ctx0, [("default", ss0)], [cont 1 5 10, wjob 2 1 5]⟩ = none ∧
    (schedule hy4 0 [2] ⟨ctx0, [("default", ss0)], [wjob 2 1 5]⟩).isSome := by decide

/-- **C49, violated.** So does an inner job whose container does not exist (a label typed by the user). -/
theorem missing_container_aborts_violated :
    schedule hy4 0 [1, 2] ⟨ctx0, [("default", ss0)], [{ wjob 1 1 5 with types := [("inner", "nowhere")] }, wjob 2 1 5]⟩ =
      none := by decide

end Oar.Kao
