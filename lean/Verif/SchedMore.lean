import Verif.SchedDeps

/-!
# Lemmas about a pass: one slot set, its cache, container slot sets, dependencies
-/

namespace Oar.Kao
open Spec Oar.Hierarchy

/-- What an iteration does to a slot set which the job does not open. -/
theorem scheduleOne_set {n : String} {st st' : Sched} {hy : Hy} {sec : Int} {jid : Nat}
    (hno : ∀ job, st.job? jid = some job → ¬ Opens job n) (h : scheduleOne hy sec st jid = some st') :
    st'.sets.lookup n = st.sets.lookup n ∨
    ∃ job ss ss' minStart ctx' job', st.job? jid = some job ∧ job.setName = n ∧ st.sets.lookup n = some ss ∧
      assign st.ctx ss job hy minStart = some (ctx', ss', job') ∧ st'.sets.lookup n = some ss' := by
  obtain ⟨job, hj, hid, hcase⟩ := scheduleOne_cases h
  have hno := hno job hj
  rcases hcase with ⟨_, hst'⟩ | ⟨minStart, ss, ctx', ss', job', ctx'', sets', _, hl, ha, ho, hst'⟩
  · left; rw [hst']; rfl
  · obtain ⟨s1, s2, _⟩ := assign_static ha
    have hno' : ¬ Opens job' n := by
      rintro ⟨v, hv, he⟩
      exact hno ⟨v, by rw [← s2]; exact hv, by rw [← he]; unfold Job.containerName; rw [s1]⟩
    have hlk := openContainer_other hno' ho
    have hst2 : st'.sets.lookup n = sets'.lookup n := by rw [hst']; rfl
    rw [lookup_dictSet] at hlk
    by_cases hn : job.setName = n
    · right
      rw [if_pos hn.symm] at hlk
      exact ⟨job, ss, ss', minStart, ctx', job', hj, hn, hn ▸ hl, ha, hst2.trans hlk⟩
    · left
      rw [if_neg (fun e => hn e.symm)] at hlk
      exact hst2.trans hlk

/-- The pass keeps the cache of a slot set valid. -/
theorem schedule_cache {n : String} {hy : Hy} {sec : Int} {dec : Decode} :
    ∀ (jids : List Nat) (st st' : Sched) (s0 : SlotSet), st.sets.lookup n = some s0 → WF s0 → s0.end_ < largeEnough →
    CacheOk dec hy s0 → jids.Nodup →
    (∀ i ∈ jids, ∀ job, st.job? i = some job → Fresh n job ∧ KeyOk dec job ∧
      ∀ m ∈ job.mlds, ∀ g ∈ m.groups, GroupOk hy g) →
    PassStable st.ctx jids st → schedule hy sec jids st = some st' →
    ∃ s1, st'.sets.lookup n = some s1 ∧ WF s1 ∧ s1.begin_ = s0.begin_ ∧ s1.end_ = s0.end_ ∧ CacheOk dec hy s1
  | [], st, st', s0, hl, hwf, hend, hco, _, _, _, h => by
    simp only [schedule, Option.some.injEq] at h
    subst h
    exact ⟨s0, hl, hwf, rfl, rfl, hco⟩
  | jid :: jids, st, st', s0, hl, hwf, hend, hco, hnd, hjobs, hstab, h => by
    unfold schedule at h
    cases h1 : scheduleOne hy sec st jid with
    | none => rw [h1] at h; simp at h
    | some st1 =>
      rw [h1] at h
      dsimp only at h
      rw [List.nodup_cons] at hnd
      have hother : ∀ i ∈ jids, st1.job? i = st.job? i := fun i hi => scheduleOne_job? h1 (fun e => hnd.1 (e ▸ hi))
      have hstep : ∃ s1, st1.sets.lookup n = some s1 ∧ WF s1 ∧ s1.begin_ = s0.begin_ ∧ s1.end_ = s0.end_ ∧
          CacheOk dec hy s1 := by
        rcases scheduleOne_set (fun job hj => (hjobs jid (by simp) job hj).1.noOpen) h1 with
          e | ⟨job, ss, ss', minStart, ctx', job', hj, hn, hss, ha, e⟩
        · exact ⟨s0, e.trans hl, hwf, rfl, rfl, hco⟩
        · rw [hl, Option.some.injEq] at hss
          subst hss
          obtain ⟨hf, hk, hok⟩ := hjobs jid (by simp) job hj
          have hst : Stable st.ctx job.mlds none := by
            rcases hstab with hs | hs
            · exact Or.inl hs
            · exact Or.inr ⟨hs jid (by simp) job hj, rfl⟩
          obtain ⟨_, a2, _, a4, a5, _⟩ := assign_spec hf.plain hwf hco.ids hend hst ha
          exact ⟨ss', e, a2, a4, a5, assign_cache hf.plain hk hok hwf hco hend hst ha⟩
      obtain ⟨s1, g1, g2, g3, g4, g5⟩ := hstep
      obtain ⟨s2, k1, k2, k3, k4, k5⟩ := schedule_cache jids st1 st' s1 g1 g2 (by rw [g4]; exact hend) g5 hnd.2
        (fun i hi job hj => hjobs i (List.mem_cons_of_mem _ hi) job (by rw [← hother i hi]; exact hj))
        (by
          rcases hstab with hs | hs
          · left; rw [scheduleOne_cal h1 hs]; exact hs
          · right; intro i hi job hj; exact hs i (List.mem_cons_of_mem _ hi) job (by rw [← hother i hi]; exact hj)) h
      exact ⟨s2, k1, k2, k3.trans g3, k4.trans g4, k5⟩

/-- Two first-fit answers agree on the resources and on the first slot. -/
theorem firstFit_unique {ss : SlotSet} (hwf : WF ss) {hy : Hy} {m : Mld} {minStart : Int}
    (hok : ∀ g ∈ m.groups, GroupOk hy g)
    {r1 r2 : Option (ProcSet × Nat × Nat)} (h1 : FirstFit ss hy m minStart r1) (h2 : FirstFit ss hy m minStart r2)
    (hlow : minStart < 0) : r1.map (fun x => (x.1, x.2.1)) = r2.map (fun x => (x.1, x.2.1)) := by
  have hfeas : ∀ {t R}, Answers ss hy m.groups m.walltime t R → Feasible ss hy m.groups m.walltime t := by
    intro t R ha
    obtain ⟨A, hA, hj⟩ := ha.shape
    refine ⟨A, hA, ?_⟩
    obtain ⟨r', e1, e2⟩ := findJob_sat A hy m.groups hok
    rw [hj, Option.some.injEq] at e1
    subst e1
    exact e2.1 ha.ne
  have hall : ∀ t, Allowed minStart t := fun t => Or.inl hlow
  rcases r1 with _ | ⟨R1, a1, b1⟩ <;> rcases r2 with _ | ⟨R2, a2, b2⟩
  · rfl
  · obtain ⟨s, _, _, ha, _⟩ := h2.2 R2 a2 b2 rfl
    exact absurd (hfeas ha) (h1.1 rfl _ (hall _))
  · obtain ⟨s, _, _, ha, _⟩ := h1.2 R1 a1 b1 rfl
    exact absurd (hfeas ha) (h2.1 rfl _ (hall _))
  · obtain ⟨s, m1, e1, ha1, n1⟩ := h1.2 R1 a1 b1 rfl
    obtain ⟨s', m2, e2, ha2, n2⟩ := h2.2 R2 a2 b2 rfl
    have hb : s.b = s'.b := by
      by_contra hne
      rcases lt_or_gt_of_ne hne with hlt | hlt
      · exact n2 _ (hall _) hlt (hfeas ha1)
      · exact n1 _ (hall _) hlt (hfeas ha2)
    obtain ⟨c, hc⟩ := hwf
    have hs1 := (tiled_bounds _ _ _ hc.tiled).2 s (hc.mem_iff.1 m1)
    have hs2 := (tiled_bounds _ _ _ hc.tiled).2 s' (hc.mem_iff.1 m2)
    have hss : s = s' := tiled_unique c _ _ s.b hc.tiled s s' (hc.mem_iff.1 m1) (hc.mem_iff.1 m2) le_rfl hs1.2.1
      (by omega) (by omega)
    subst hss
    obtain ⟨A1, hA1, hj1⟩ := ha1.shape
    obtain ⟨A2, hA2, hj2⟩ := ha2.shape
    have : A1 = A2 := by ext x; rw [hA1, hA2]
    subst this
    rw [hj1, Option.some.injEq] at hj2
    simp [← e1, ← e2, hj2]

end Oar.Kao
