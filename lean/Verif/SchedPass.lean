import Verif.SchedBest

/-!
# A scheduling pass
-/

namespace Oar.Kao
open Spec Oar.Hierarchy

theorem job?_id {st : Sched} {i : Nat} {a : Job} (h : st.job? i = some a) : a.id = i := by
  have := List.find?_some h
  simpa using this

theorem job?_setJob (st : Sched) (job : Job) (i : Nat) :
    (st.setJob job).job? i = if i = job.id then (st.job? i).map (fun _ => job) else st.job? i := by
  unfold Sched.job? Sched.setJob
  simp only
  induction st.jobs with
  | nil => simp
  | cons j js ih =>
    rw [List.map_cons, List.find?_cons, List.find?_cons]
    by_cases hj : j.id = job.id
    · rw [if_pos hj]
      by_cases hi : i = job.id
      · subst hi; simp [hj]
      · have h1 : (job.id == i) = false := by simpa using fun h => hi h.symm
        have h2 : (j.id == i) = false := by rw [hj]; exact h1
        simp only [h1, h2, if_neg hi]
        rw [if_neg hi] at ih
        exact ih
    · rw [if_neg hj]
      cases hji : (j.id == i) with
      | true =>
        have : j.id = i := by simpa using hji
        have hi : ¬ i = job.id := by rw [← this]; exact hj
        simp [if_neg hi]
      | false => exact ih

theorem job?_setJob_ctx (st : Sched) (c : Ctx) (sets : List (String × SlotSet)) (job : Job) (i : Nat) :
    ({ st with ctx := c, sets := sets }.setJob job).job? i = (st.setJob job).job? i := rfl

theorem scheduleOne_cases {hy : Hy} {sec : Int} {st st' : Sched} {jid : Nat}
    (h : scheduleOne hy sec st jid = some st') :
    ∃ job, st.job? jid = some job ∧ job.id = jid ∧
      ((depsLoop st job.deps (-1) = none ∧ st' = st.setJob { job with startTime := -1 }) ∨
       ∃ minStart ss ctx' ss' job' ctx'' sets', depsLoop st job.deps (-1) = some minStart ∧
        st.sets.lookup job.setName = some ss ∧ assign st.ctx ss job hy minStart = some (ctx', ss', job') ∧
        openContainer ctx' (dictSet job.setName ss' st.sets) job' sec = some (ctx'', sets') ∧
        st' = { st with ctx := ctx'', sets := sets' }.setJob job') := by
  unfold scheduleOne at h
  cases hj : st.job? jid with
  | none => rw [hj] at h; simp at h
  | some job =>
    rw [hj] at h
    dsimp only at h
    refine ⟨job, rfl, job?_id hj, ?_⟩
    cases hd : depsLoop st job.deps (-1) with
    | none =>
      rw [hd] at h
      simp only [Option.some.injEq] at h
      exact Or.inl ⟨rfl, h.symm⟩
    | some minStart =>
      rw [hd] at h
      dsimp only at h
      right
      cases hs : st.sets.lookup job.setName with
      | none => rw [hs] at h; simp at h
      | some ss =>
        rw [hs] at h
        dsimp only at h
        cases ha : assign st.ctx ss job hy minStart with
        | none => rw [ha] at h; simp at h
        | some y =>
          obtain ⟨ctx', ss', job'⟩ := y
          rw [ha] at h
          dsimp only at h
          cases ho : openContainer ctx' (dictSet job.setName ss' st.sets) job' sec with
          | none => rw [ho] at h; simp at h
          | some z =>
            obtain ⟨ctx'', sets'⟩ := z
            rw [ho] at h
            simp only [Option.some.injEq] at h
            exact ⟨minStart, ss, ctx', ss', job', ctx'', sets', rfl, rfl, ha, ho, h.symm⟩

/-- What an assignment never changes in a job. -/
theorem assign_static {ctx ctx' : Ctx} {ss ss' : SlotSet} {job job' : Job} {hy : Hy} {minStart : Int}
    (h : assign ctx ss job hy minStart = some (ctx', ss', job')) :
    job'.id = job.id ∧ job'.types = job.types ∧ job'.mlds = job.mlds ∧ job'.deps = job.deps ∧ job'.ts = job.ts ∧
      job'.ph = job.ph := by
  unfold assign at h
  split at h
  · simp at h
  · split at h
    · simp at h
    · split at h
      · simp only [Option.some.injEq, Prod.mk.injEq] at h
        obtain ⟨_, _, rfl⟩ := h
        exact ⟨rfl, rfl, rfl, rfl, rfl, rfl⟩
      · split at h
        · simp at h
        · dsimp only at h
          split at h
          · simp at h
          · simp only [Option.some.injEq, Prod.mk.injEq] at h
            obtain ⟨_, _, rfl⟩ := h
            exact ⟨rfl, rfl, rfl, rfl, rfl, rfl⟩

theorem setName_congr {a b : Job} (h : a.types = b.types) : a.setName = b.setName := by
  unfold Job.setName; rw [h]

/-- The names of the slot sets a job may open. -/
def Opens (job : Job) (n : String) : Prop := ∃ v, job.types.lookup "container" = some v ∧ job.containerName v = n

theorem openContainer_other {ctx ctx' : Ctx} {sets sets' : List (String × SlotSet)} {job : Job} {sec : Int} {n : String}
    (hn : ¬ Opens job n) (h : openContainer ctx sets job sec = some (ctx', sets')) :
    sets'.lookup n = sets.lookup n := by
  unfold openContainer at h
  split at h
  · simp only [Option.some.injEq, Prod.mk.injEq] at h
    rw [h.2]
  · rename_i v hv
    have hne : n ≠ job.containerName v := fun e => hn ⟨v, hv, e.symm⟩
    split at h
    · split at h
      · split at h
        · simp at h
        · simp only [Option.some.injEq, Prod.mk.injEq] at h
          rw [← h.2, lookup_dictSet, if_neg hne]
      · dsimp only at h
        split at h
        · simp at h
        · simp only [Option.some.injEq, Prod.mk.injEq] at h
          rw [← h.2, lookup_dictSet, if_neg hne]
    · simp at h

/-! ## The calendar, when there is none, stays absent -/

theorem findFirst_cal {ctx ctx' : Ctx} {ss ss' : SlotSet} {job : Job} {mld : Mld} {hy : Hy} {minStart : Int}
    {res : Option (ProcSet × Nat × Nat)} (hcal : ctx.cal = none)
    (hf : findFirst ctx ss job mld hy minStart = some (ctx', ss', res)) : ctx' = ctx := by
  unfold findFirst at hf
  split at hf
  · unfold findQuotas at hf
    split at hf
    · simp at hf
    · split at hf
      · split at hf
        · simp only [Option.some.injEq, Prod.mk.injEq] at hf
          exact hf.1.symm
        · exact (quotasLoop_noCal _ _ _ _ _ _ _ hcal hf).1
      · simp at hf
  · simp only [Option.map_eq_some_iff, Prod.mk.injEq] at hf
    obtain ⟨_, _, rfl, _⟩ := hf
    rfl

theorem assignLoop_cal {job : Job} {hy : Hy} {minStart : Int} :
    ∀ (ms : List Mld) (ctx ctx' : Ctx) (ss ss' : SlotSet) (best best' : Option Best) (n n' : Nat), ctx.cal = none →
    assignLoop job hy minStart ms ctx ss best n = some (ctx', ss', best', n') → ctx' = ctx
  | [], ctx, ctx', ss, ss', best, best', n, n', _, h => by
    simp only [assignLoop, Option.some.injEq, Prod.mk.injEq] at h
    exact h.1.symm
  | m :: ms, ctx, ctx', ss, ss', best, best', n, n', hc, h => by
    unfold assignLoop at h
    split at h
    · simp at h
    · rename_i ctx1 ss1 hf
      have := findFirst_cal hc hf
      subst this
      exact assignLoop_cal ms _ _ _ _ _ _ _ _ hc h
    · rename_i ctx1 ss1 R l r hf
      have := findFirst_cal hc hf
      subst this
      split at h
      · simp at h
      · dsimp only at h
        split at h
        · split at h
          · simp at h
          · exact assignLoop_cal ms _ _ _ _ _ _ _ _ hc h
        · exact assignLoop_cal ms _ _ _ _ _ _ _ _ hc h

theorem assign_cal {ctx ctx' : Ctx} {ss ss' : SlotSet} {job job' : Job} {hy : Hy} {minStart : Int}
    (hc : ctx.cal = none) (h : assign ctx ss job hy minStart = some (ctx', ss', job')) : ctx' = ctx := by
  unfold assign at h
  split at h
  · simp at h
  · split at h
    · simp at h
    · rename_i hl
      have := assignLoop_cal _ _ _ _ _ _ _ _ _ hc hl
      subst this
      split at h
      · simp only [Option.some.injEq, Prod.mk.injEq] at h
        exact h.1.symm
      · split at h
        · simp at h
        · dsimp only at h
          split at h
          · simp at h
          · simp only [Option.some.injEq, Prod.mk.injEq] at h
            exact h.1.symm

theorem openContainer_cal {ctx ctx' : Ctx} {sets sets' : List (String × SlotSet)} {job : Job} {sec : Int}
    (hc : ctx.cal = none) (h : openContainer ctx sets job sec = some (ctx', sets')) : ctx' = ctx := by
  unfold openContainer at h
  split at h
  · simp only [Option.some.injEq, Prod.mk.injEq] at h
    exact h.1.symm
  · split at h
    · split at h
      · split at h
        · simp at h
        · simp only [Option.some.injEq, Prod.mk.injEq] at h
          exact h.1.symm
      · dsimp only at h
        split at h
        · simp at h
        · rename_i hi
          simp only [Option.some.injEq, Prod.mk.injEq] at h
          unfold SlotSet.initCalendar at hi
          rw [hc] at hi
          simp only [Option.some.injEq, Prod.mk.injEq] at hi
          rw [← h.1, ← hi.1]
    · simp at h

/-! ## The invariant of a pass, for the slot set named `n` -/

/-- The timeline of the slot set is in order. -/
def SetOk (ss : SlotSet) : Prop := WF ss ∧ CacheIds ss ∧ ss.end_ < largeEnough

/-- A waiting job at the begin of a pass; `n` is the slot set under consideration. -/
structure Fresh (n : String) (job : Job) : Prop where
  plain : Plain job
  unset : job.resSet = none
  noOpen : ¬ Opens job n

/-- Invariant: `s0` is the slot set `n` at the begin of the pass, `ids` the jobs already treated. -/
structure PassInv (n : String) (s0 : SlotSet) (ids : List Nat) (st : Sched) : Prop where
  set_ : ∃ ss, st.sets.lookup n = some ss ∧ SetOk ss ∧ ss.begin_ = s0.begin_ ∧ ss.end_ = s0.end_ ∧
    (∀ t x, Free ss t x → Free s0 t x) ∧
    ∀ i ∈ ids, ∀ a, st.job? i = some a → a.setName = n → ∀ w R, a.walltime = some w → a.resSet = some R →
      ∀ x ∈ R, ∀ t, a.startTime ≤ t → t < a.startTime + w → ¬ Free ss t x ∧ Free s0 t x
  pair : ∀ i ∈ ids, ∀ j ∈ ids, i ≠ j → ∀ a b, st.job? i = some a → st.job? j = some b → a.setName = n → b.setName = n →
    ∀ wa wb Ra Rb, a.walltime = some wa → b.walltime = some wb → a.resSet = some Ra → b.resSet = some Rb →
    ∀ t, a.startTime ≤ t → t < a.startTime + wa → b.startTime ≤ t → t < b.startTime + wb → Disjoint Ra Rb

theorem passInv_step {n : String} {s0 : SlotSet} {ids : List Nat} {st st' : Sched} {hy : Hy} {sec : Int} {jid : Nat}
    (hinv : PassInv n s0 ids st) (hnew : jid ∉ ids)
    (hjob : ∀ job, st.job? jid = some job → Fresh n job ∧ Stable st.ctx job.mlds none)
    (h : scheduleOne hy sec st jid = some st') : PassInv n s0 (jid :: ids) st' := by
  obtain ⟨job, hj, hid, hcase⟩ := scheduleOne_cases h
  obtain ⟨⟨hpl, hun, hno⟩, hstab⟩ := hjob job hj
  -- what matters: the new job, the new set
  have key : ∀ (job' : Job) (sets' : List (String × SlotSet)) (ctx'' : Ctx),
      st' = { st with ctx := ctx'', sets := sets' }.setJob job' → job'.id = jid → job'.setName = job.setName →
      (∃ ss ss', st.sets.lookup n = some ss ∧ sets'.lookup n = some ss' ∧ SetOk ss' ∧ ss'.begin_ = ss.begin_ ∧
        ss'.end_ = ss.end_ ∧ (∀ t x, Free ss' t x → Free ss t x) ∧
        (job.setName = n → ∀ w R, job'.walltime = some w → job'.resSet = some R → ∀ x ∈ R, ∀ t, job'.startTime ≤ t →
          t < job'.startTime + w → Free ss t x ∧ ¬ Free ss' t x)) → PassInv n s0 (jid :: ids) st' := by
    intro job' sets' ctx'' hst' hid' hname ⟨ss, ss', h1, h2, h3, h4, h5, h6, h7⟩
    obtain ⟨ssx, k1, k2, k3, k4, k5, k6⟩ := hinv.set_
    rw [h1, Option.some.injEq] at k1
    subst k1
    have hget : ∀ i, st'.job? i = if i = jid then some job' else st.job? i := by
      intro i
      rw [hst', job?_setJob_ctx, job?_setJob, hid']
      by_cases hi : i = jid
      · subst hi; simp [hj]
      · rw [if_neg hi, if_neg hi]
    have hsets : st'.sets.lookup n = some ss' := by rw [hst']; exact h2
    have hnewdis : ∀ j ∈ ids, ∀ b, st.job? j = some b → job'.setName = n → b.setName = n →
        ∀ wa wb Ra Rb, job'.walltime = some wa → b.walltime = some wb → job'.resSet = some Ra → b.resSet = some Rb →
        ∀ t, job'.startTime ≤ t → t < job'.startTime + wa → b.startTime ≤ t → t < b.startTime + wb →
        Disjoint Ra Rb := by
      intro j hjm b hb hn1 hn2 wa wb Ra Rb e1 e2 e3 e4 t t1 t2 t3 t4
      rw [Finset.disjoint_left]
      intro x hx1 hx2
      have q1 := (h7 (hname ▸ hn1) wa Ra e1 e3 x hx1 t t1 t2).1
      have q2 := (k6 j hjm b hb hn2 wb Rb e2 e4 x hx2 t t3 t4).1
      exact q2 q1
    refine ⟨⟨ss', hsets, h3, h4.trans k3, h5.trans k4, fun t x hx => k5 t x (h6 t x hx), ?_⟩, ?_⟩
    · intro i hi a ha hn w R hw hR x hx t t1 t2
      rw [hget] at ha
      by_cases hij : i = jid
      · rw [if_pos hij, Option.some.injEq] at ha
        subst ha
        obtain ⟨q1, q2⟩ := h7 (hname ▸ hn) w R hw hR x hx t t1 t2
        exact ⟨q2, k5 t x q1⟩
      · rw [if_neg hij] at ha
        have hi' : i ∈ ids := by
          rcases List.mem_cons.1 hi with h' | h'
          · exact absurd h' hij
          · exact h'
        obtain ⟨q1, q2⟩ := k6 i hi' a ha hn w R hw hR x hx t t1 t2
        exact ⟨fun hf => q1 (h6 t x hf), q2⟩
    · intro i hi j hj' hij a b ha hb
      rw [hget] at ha hb
      by_cases hi0 : i = jid
      · rw [if_pos hi0, Option.some.injEq] at ha
        subst ha
        have hj0 : ¬ j = jid := fun e => hij (hi0.trans e.symm)
        rw [if_neg hj0] at hb
        have hjm : j ∈ ids := (List.mem_cons.1 hj').resolve_left hj0
        exact hnewdis j hjm b hb
      · rw [if_neg hi0] at ha
        have him : i ∈ ids := (List.mem_cons.1 hi).resolve_left hi0
        by_cases hj0 : j = jid
        · rw [if_pos hj0, Option.some.injEq] at hb
          subst hb
          intro n1 n2 wa wb Ra Rb e1 e2 e3 e4 t t1 t2 t3 t4
          exact (hnewdis i him a ha n2 n1 wb wa Rb Ra e2 e1 e4 e3 t t3 t4 t1 t2).symm
        · rw [if_neg hj0] at hb
          have hjm : j ∈ ids := (List.mem_cons.1 hj').resolve_left hj0
          exact hinv.pair i him j hjm hij a b ha hb
  obtain ⟨ssn, k1, k2, k3, k4, k5, k6⟩ := hinv.set_
  rcases hcase with ⟨_, hst'⟩ | ⟨minStart, ss, ctx', ss', job', ctx'', sets', _, hl, ha, ho, hst'⟩
  · refine key { job with startTime := -1 } st.sets st.ctx hst' hid rfl
      ⟨ssn, ssn, k1, k1, k2, rfl, rfl, fun _ _ h => h, ?_⟩
    intro _ w R _ hR
    have hR' : job.resSet = some R := hR
    rw [hun] at hR'
    simp at hR'
  · obtain ⟨s1, s2, s3, s4, s5, s6⟩ := assign_static ha
    have hno' : ¬ Opens job' n := by
      rintro ⟨v, hv, he⟩
      exact hno ⟨v, by rw [← s2]; exact hv, by rw [← he]; unfold Job.containerName; rw [s1]⟩
    have hlk := openContainer_other hno' ho
    refine key job' sets' ctx'' hst' (s1.trans hid) (setName_congr s2) ?_
    by_cases hn : job.setName = n
    · rw [hn, lookup_dictSet, if_pos rfl] at hlk
      rw [hn, k1, Option.some.injEq] at hl
      subst hl
      obtain ⟨q1, q2, q3, q4, q5, q6, q7⟩ := assign_spec hpl k2.1 k2.2.1 k2.2.2 hstab ha
      refine ⟨ssn, ss', k1, hlk, ⟨q2, q3, by rw [q5]; exact k2.2.2⟩, q4, q5, ?_, ?_⟩
      · cases q7 with
        | no hj' hfree => intro t x hx; exact (hfree t x).1 hx
        | yes m R t0 extra hm hw hj' hans hfree => intro t x hx; exact ((hfree t x).1 hx).1
      · intro _ w R hw hR x hx t t1 t2
        cases q7 with
        | no hj' hfree =>
          rw [hj'] at hR
          simp only [Option.some.injEq] at hR
          rw [← hR] at hx
          simp at hx
        | yes m R' t0 extra hm hw' hj' hans hfree =>
          rw [hj'] at hR hw t1 t2
          simp only [Option.some.injEq] at hR hw
          subst hR; subst hw
          dsimp only at t1 t2
          refine ⟨hans.free x hx t t1 t2, fun hf => ?_⟩
          exact ((hfree t x).1 hf).2 ⟨hx, t1, Or.inl t2⟩
    · rw [lookup_dictSet, if_neg (fun e => hn e.symm), k1] at hlk
      exact ⟨ssn, ssn, k1, hlk, k2, rfl, rfl, fun _ _ h => h, fun e => absurd e hn⟩

/-- No calendar, or no moldable job. -/
def PassStable (ctx : Ctx) (jids : List Nat) (st : Sched) : Prop :=
  ctx.cal = none ∨ ∀ jid ∈ jids, ∀ job, st.job? jid = some job → job.mlds.length ≤ 1

theorem scheduleOne_job? {hy : Hy} {sec : Int} {st st' : Sched} {jid i : Nat}
    (h : scheduleOne hy sec st jid = some st') (hi : i ≠ jid) : st'.job? i = st.job? i := by
  obtain ⟨job, hj, hid, hcase⟩ := scheduleOne_cases h
  rcases hcase with ⟨_, hst'⟩ | ⟨minStart, ss, ctx', ss', job', ctx'', sets', _, hl, ha, ho, hst'⟩
  · rw [hst', job?_setJob, if_neg]
    intro e; exact hi (e.trans hid)
  · rw [hst', job?_setJob_ctx, job?_setJob, if_neg]
    intro e; exact hi (e.trans ((assign_static ha).1.trans hid))

theorem scheduleOne_cal {hy : Hy} {sec : Int} {st st' : Sched} {jid : Nat}
    (h : scheduleOne hy sec st jid = some st') (hc : st.ctx.cal = none) : st'.ctx = st.ctx := by
  obtain ⟨job, hj, hid, hcase⟩ := scheduleOne_cases h
  rcases hcase with ⟨_, hst'⟩ | ⟨minStart, ss, ctx', ss', job', ctx'', sets', _, hl, ha, ho, hst'⟩
  · rw [hst']; rfl
  · have e1 := assign_cal hc ha
    subst e1
    have e2 := openContainer_cal hc ho
    rw [hst']; exact e2

theorem schedule_inv {n : String} {s0 : SlotSet} {hy : Hy} {sec : Int} :
    ∀ (jids ids : List Nat) (st st' : Sched), PassInv n s0 ids st → jids.Nodup → (∀ i ∈ jids, i ∉ ids) →
    (∀ jid ∈ jids, ∀ job, st.job? jid = some job → Fresh n job) → PassStable st.ctx jids st →
    schedule hy sec jids st = some st' → ∃ ids', (∀ i, i ∈ ids' ↔ i ∈ jids ∨ i ∈ ids) ∧ PassInv n s0 ids' st'
  | [], ids, st, st', hinv, _, _, _, _, h => by
    simp only [schedule, Option.some.injEq] at h
    subst h
    exact ⟨ids, by simp, hinv⟩
  | jid :: jids, ids, st, st', hinv, hnd, hdis, hfresh, hstab, h => by
    unfold schedule at h
    cases h1 : scheduleOne hy sec st jid with
    | none => rw [h1] at h; simp at h
    | some st1 =>
      rw [h1] at h
      dsimp only at h
      rw [List.nodup_cons] at hnd
      have hinv1 := passInv_step hinv (hdis jid (by simp)) (fun job hj => ⟨hfresh jid (by simp) job hj, by
        rcases hstab with hs | hs
        · exact Or.inl hs
        · exact Or.inr ⟨hs jid (by simp) job hj, rfl⟩⟩) h1
      have hother : ∀ i ∈ jids, st1.job? i = st.job? i := fun i hi =>
        scheduleOne_job? h1 (fun e => hnd.1 (e ▸ hi))
      obtain ⟨ids', g1, g2⟩ := schedule_inv jids (jid :: ids) st1 st' hinv1 hnd.2
        (fun i hi => by
          rw [List.mem_cons]
          rintro (e | e)
          · exact hnd.1 (e ▸ hi)
          · exact hdis i (List.mem_cons_of_mem _ hi) e)
        (fun i hi job hj => hfresh i (List.mem_cons_of_mem _ hi) job (by rw [← hother i hi]; exact hj))
        (by
          rcases hstab with hs | hs
          · left; rw [scheduleOne_cal h1 hs]; exact hs
          · right; intro i hi job hj; exact hs i (List.mem_cons_of_mem _ hi) job (by rw [← hother i hi]; exact hj)) h
      refine ⟨ids', fun i => ?_, g2⟩
      rw [g1, List.mem_cons, List.mem_cons]
      tauto

end Oar.Kao
