import Verif.SchedLoop

/-!
# The chosen alternative ends first
-/

namespace Oar.Kao
open Spec Oar.Hierarchy

/-- Quotas are not applied to this job. -/
def NoQuotas (ctx : Ctx) (job : Job) : Prop := ¬ (ctx.env.enabled = true ∧ job.noQuotas = false)

theorem findFirst_noQuotas {ctx : Ctx} {ss : SlotSet} {job : Job} {mld : Mld} {hy : Hy} {minStart : Int}
    (h : NoQuotas ctx job) : findFirst ctx ss job mld hy minStart =
      (findNoQuotas ss job mld hy minStart).map (fun x => (ctx, x.1, x.2)) := by
  unfold findFirst
  rw [if_neg h]

/-- No alternative of `ms` can end before (`strict`: nor at) `fin`. -/
def NoneBefore (ss : SlotSet) (hy : Hy) (minStart : Int) (ms : List Mld) (fin : Int) : Prop :=
  ∀ m ∈ ms, ∀ t, Allowed minStart t → Feasible ss hy m.groups m.walltime t → fin ≤ t + m.walltime - 1

theorem NoneBefore.sameSlots {ss ss' : SlotSet} (h : SameSlots ss ss') {hy : Hy} {minStart : Int} {ms : List Mld}
    {fin : Int} : NoneBefore ss' hy minStart ms fin ↔ NoneBefore ss hy minStart ms fin := by
  simp only [NoneBefore, sameSlots_feasible h]

theorem SameSlots.trans {a b c : SlotSet} (h1 : SameSlots a b) (h2 : SameSlots b c) : SameSlots a c :=
  ⟨h2.1.trans h1.1, h2.2.1.trans h1.2.1, h2.2.2.1.trans h1.2.2.1, h2.2.2.2.trans h1.2.2.2⟩

theorem assignLoop_opt {job : Job} {hy : Hy} {minStart : Int} {dec : Decode} (hp : Plain job) (hk : KeyOk dec job) :
    ∀ (ms : List Mld) (ctx ctx' : Ctx) (ss ss' : SlotSet) (best best' : Option Best) (n n' : Nat),
    (∀ m ∈ ms, m ∈ job.mlds ∧ ∀ g ∈ m.groups, GroupOk hy g) → NoQuotas ctx job → WF ss → CacheOk dec hy ss →
    assignLoop job hy minStart ms ctx ss best n = some (ctx', ss', best', n') →
    SameSlots ss ss' ∧ CacheOk dec hy ss' ∧
    ((best' = best ∧ NoneBefore ss hy minStart ms (bestFinish best)) ∨
     ∃ pre b post, ms = pre ++ b.mld :: post ∧ best' = some b ∧ b.finish = b.start + b.mld.walltime - 1 ∧
      b.finish < bestFinish best ∧ NoneBefore ss hy minStart pre (b.finish + 1) ∧
      NoneBefore ss hy minStart (b.mld :: post) b.finish ∧
      Answers ss hy b.mld.groups b.mld.walltime b.start b.res)
  | [], ctx, ctx', ss, ss', best, best', n, n', _, _, hwf, hco, h => by
    simp only [assignLoop, Option.some.injEq, Prod.mk.injEq] at h
    obtain ⟨rfl, rfl, rfl, rfl⟩ := h
    exact ⟨⟨rfl, rfl, rfl, rfl⟩, hco, Or.inl ⟨rfl, fun m hm => absurd hm (by simp)⟩⟩
  | m :: ms, ctx, ctx', ss, ss', best, best', n, n', hmem, hnq, hwf, hco, h => by
    unfold assignLoop at h
    rw [findFirst_noQuotas hnq] at h
    cases hf : findNoQuotas ss job m hy minStart with
    | none => rw [hf] at h; simp at h
    | some y =>
      obtain ⟨ss1, res⟩ := y
      obtain ⟨hmm, hgok⟩ := hmem m (by simp)
      obtain ⟨hss, hw, hff, hco1⟩ := findNoQuotas_firstFit hwf hco hp hmm hk hgok hf
      have hwf1 : WF ss1 := by
        obtain ⟨c, hc⟩ := hwf
        exact ⟨c, hss.part hc⟩
      have ih := fun best1 n1 (hl : assignLoop job hy minStart ms ctx ss1 best1 n1 = some (ctx', ss', best', n')) =>
        assignLoop_opt hp hk ms ctx ctx' ss1 ss' best1 best' n1 n' (fun x hx => hmem x (List.mem_cons_of_mem _ hx))
          hnq hwf1 hco1 hl
      rw [hf] at h
      simp only [Option.map_some] at h
      have hcons : ∀ fin, (∀ t, Allowed minStart t → Feasible ss hy m.groups m.walltime t → fin ≤ t + m.walltime - 1) →
          NoneBefore ss hy minStart ms fin → NoneBefore ss hy minStart (m :: ms) fin := by
        intro fin h1 h2 x hx
        rcases List.mem_cons.1 hx with rfl | hx
        · exact h1
        · exact h2 x hx
      have hconsP : ∀ fin pre, (∀ t, Allowed minStart t → Feasible ss hy m.groups m.walltime t → fin ≤ t + m.walltime - 1) →
          NoneBefore ss hy minStart pre fin → NoneBefore ss hy minStart (m :: pre) fin := by
        intro fin pre h1 h2 x hx
        rcases List.mem_cons.1 hx with rfl | hx
        · exact h1
        · exact h2 x hx
      cases res with
      | none =>
        dsimp only at h
        obtain ⟨g1, g2, g3⟩ := ih _ _ h
        have hno := hff.1 rfl
        refine ⟨hss.trans g1, g2, ?_⟩
        simp only [NoneBefore.sameSlots hss, sameSlots_answers hss] at g3
        rcases g3 with ⟨k1, k2⟩ | ⟨pre, b, post, k1, k2, k3, k4, k5, k6, k7⟩
        · exact Or.inl ⟨k1, hcons _ (fun t ht hfe => absurd hfe (hno t ht)) k2⟩
        · exact Or.inr ⟨m :: pre, b, post, by rw [k1]; rfl, k2, k3, k4,
            hconsP _ _ (fun t ht hfe => absurd hfe (hno t ht)) k5, k6, k7⟩
      | some r =>
        obtain ⟨R, a, z⟩ := r
        dsimp only at h
        obtain ⟨s, hs1, hid, hans, hfirst⟩ := hff.2 R a z rfl
        have hg : ss1.get? a = some s := by
          obtain ⟨c1, hc1⟩ := hwf1
          rw [← hid]; exact hc1.get (hc1.mem_iff.1 (by rw [hss.1]; exact hs1))
        rw [hg] at h
        dsimp only at h
        have hlow : ∀ t, Allowed minStart t → Feasible ss hy m.groups m.walltime t → s.b ≤ t := by
          intro t ht hfe
          by_contra hlt
          exact hfirst t ht (by omega) hfe
        have hhi := hans.hi
        obtain ⟨l', r', he, hwin⟩ := encompassing_window (ss := ss1) (s := s) (finish := s.b + m.walltime - 1) hwf1
          (by rw [hss.1]; exact hs1) (by omega) (by rw [hss.2.2.1]; exact hhi)
        by_cases hlt : s.b + m.walltime - 1 < bestFinish best
        · rw [if_pos hlt, he] at h
          dsimp only at h
          obtain ⟨g1, g2, g3⟩ := ih _ _ h
          refine ⟨hss.trans g1, g2, Or.inr ?_⟩
          simp only [NoneBefore.sameSlots hss, sameSlots_answers hss] at g3
          rcases g3 with ⟨k1, k2⟩ | ⟨pre, b, post, k1, k2, k3, k4, k5, k6, k7⟩
          · refine ⟨[], _, ms, rfl, k1, rfl, hlt, fun x hx => absurd hx (by simp), ?_, hans⟩
            exact hcons (s.b + m.walltime - 1) (fun t ht hfe => by have := hlow t ht hfe; omega) k2
          · have k4' : b.finish < s.b + m.walltime - 1 := k4
            exact ⟨m :: pre, b, post, by rw [k1]; rfl, k2, k3, by omega,
              hconsP _ _ (fun t ht hfe => by have := hlow t ht hfe; omega) k5, k6, k7⟩
        · rw [if_neg hlt] at h
          obtain ⟨g1, g2, g3⟩ := ih _ _ h
          refine ⟨hss.trans g1, g2, ?_⟩
          simp only [NoneBefore.sameSlots hss, sameSlots_answers hss] at g3
          rcases g3 with ⟨k1, k2⟩ | ⟨pre, b, post, k1, k2, k3, k4, k5, k6, k7⟩
          · exact Or.inl ⟨k1, hcons _ (fun t ht hfe => by have := hlow t ht hfe; omega) k2⟩
          · exact Or.inr ⟨m :: pre, b, post, by rw [k1]; rfl, k2, k3, k4,
              hconsP _ _ (fun t ht hfe => by have := hlow t ht hfe; omega) k5, k6, k7⟩

/-- The loop preserves the validity of the cache, quotas or not. -/
theorem assignLoop_cache {job : Job} {hy : Hy} {minStart : Int} {dec : Decode} (hp : Plain job) (hk : KeyOk dec job) :
    ∀ (ms : List Mld) (ctx ctx' : Ctx) (ss ss' : SlotSet) (best best' : Option Best) (n n' : Nat),
    (∀ m ∈ ms, m ∈ job.mlds ∧ ∀ g ∈ m.groups, GroupOk hy g) → WF ss → CacheOk dec hy ss →
    assignLoop job hy minStart ms ctx ss best n = some (ctx', ss', best', n') → CacheOk dec hy ss'
  | [], ctx, ctx', ss, ss', best, best', n, n', _, hwf, hco, h => by
    simp only [assignLoop, Option.some.injEq, Prod.mk.injEq] at h
    obtain ⟨rfl, rfl, rfl, rfl⟩ := h
    exact hco
  | m :: ms, ctx, ctx', ss, ss', best, best', n, n', hmem, hwf, hco, h => by
    unfold assignLoop at h
    cases hf : findFirst ctx ss job m hy minStart with
    | none => rw [hf] at h; simp at h
    | some y =>
      obtain ⟨ctx1, ss1, res⟩ := y
      obtain ⟨hmm, hgok⟩ := hmem m (by simp)
      have hs := (findFirst_spec hwf hco.ids hp hf).1
      have hco1 := findFirst_cache hwf hco hp hmm hk hgok hf
      have ih := fun best1 n1 (hl : assignLoop job hy minStart ms ctx1 ss1 best1 n1 = some (ctx', ss', best', n')) =>
        assignLoop_cache hp hk ms _ _ ss1 ss' best1 best' n1 n' (fun x hx => hmem x (List.mem_cons_of_mem _ hx))
          hs.wf hco1 hl
      rw [hf] at h
      cases res with
      | none => exact ih _ _ h
      | some r =>
        obtain ⟨R, a, z⟩ := r
        dsimp only at h
        split at h
        · simp at h
        · split at h
          · split at h
            · simp at h
            · exact ih _ _ h
          · exact ih _ _ h

theorem assign_cache {ctx ctx' : Ctx} {ss ss' : SlotSet} {job job' : Job} {hy : Hy} {minStart : Int} {dec : Decode}
    (hp : Plain job) (hk : KeyOk dec job) (hok : ∀ m ∈ job.mlds, ∀ g ∈ m.groups, GroupOk hy g)
    (hwf : WF ss) (hco : CacheOk dec hy ss) (hend : ss.end_ < largeEnough) (hst : Stable ctx job.mlds none)
    (h : assign ctx ss job hy minStart = some (ctx', ss', job')) : CacheOk dec hy ss' := by
  unfold assign at h
  split at h
  · simp at h
  · split at h
    · simp at h
    · rename_i ctx1 ss1 best n hl
      obtain ⟨g1, g2, g3, g4⟩ := assignLoop_spec hp job.mlds job.mlds _ _ _ _ _ _ _ _ (fun _ hm => hm) hwf hco.ids hend
        hst (by simp) hl
      have hco1 := assignLoop_cache hp hk job.mlds _ _ _ _ _ _ _ _ (fun m hm => ⟨hm, hok m hm⟩) hwf hco hl
      split at h
      · simp only [Option.some.injEq, Prod.mk.injEq] at h
        obtain ⟨rfl, rfl, rfl⟩ := h
        exact hco1
      · split at h
        · simp at h
        · rename_i b
          dsimp only at h
          split at h
          · simp at h
          · rename_i ss2 hsp
            simp only [Option.some.injEq, Prod.mk.injEq] at h
            obtain ⟨rfl, rfl, rfl⟩ := h
            have hb := g3 b rfl
            have hpos := hb.pos
            have hwin := hb.win
            rw [hb.fin] at hwin
            obtain ⟨ss3, k1, k2, k3, k4, k5, extra, k6, k7⟩ := split_window (ctx := ctx1) (R := b.res) (sub := true)
              (job := { job with moldableId := b.mld.id, resSet := some b.res, startTime := b.start,
                                 walltime := some b.mld.walltime }) (by omega) hwin
            rw [k1, Option.some.injEq] at hsp
            subst hsp
            exact hco1.shrink g1.wf k3.2.2 k5 (fun t x hx => ((free_map_sub g1.wf k2 (k7 t) x).1 hx).1)

/-- Without quotas: the job ends as early as any of its alternatives could. -/
theorem assign_opt {ctx ctx' : Ctx} {ss ss' : SlotSet} {job job' : Job} {hy : Hy} {minStart : Int} {dec : Decode}
    (hp : Plain job) (hk : KeyOk dec job) (hok : ∀ m ∈ job.mlds, ∀ g ∈ m.groups, GroupOk hy g)
    (hnq : NoQuotas ctx job) (hwf : WF ss) (hco : CacheOk dec hy ss) (hend : ss.end_ < largeEnough)
    (h : assign ctx ss job hy minStart = some (ctx', ss', job')) :
    (job' = { job with resSet := some ∅, startTime := -1, moldableId := -1 } ∧ SameSlots ss ss' ∧
      ∀ m ∈ job.mlds, ∀ t, Allowed minStart t → ¬ Feasible ss hy m.groups m.walltime t) ∨
    ∃ pre m post, job.mlds = pre ++ m :: post ∧ job'.moldableId = m.id ∧ job'.walltime = some m.walltime ∧
      NoneBefore ss hy minStart pre (job'.startTime + m.walltime) ∧
      NoneBefore ss hy minStart (m :: post) (job'.startTime + m.walltime - 1) ∧
      ∃ R, job'.resSet = some R ∧ Answers ss hy m.groups m.walltime job'.startTime R := by
  unfold assign at h
  split at h
  · simp at h
  · split at h
    · simp at h
    · rename_i ctx1 ss1 best n hl
      obtain ⟨g1, g2, g3⟩ := assignLoop_opt hp hk job.mlds _ _ _ _ _ _ _ _ (fun m hm => ⟨hm, hok m hm⟩) hnq hwf hco hl
      split at h
      · rename_i hn
        simp only [Option.some.injEq, Prod.mk.injEq] at h
        obtain ⟨rfl, rfl, rfl⟩ := h
        left
        refine ⟨rfl, g1, ?_⟩
        by_cases hnil : job.mlds = []
        · intro m hm; rw [hnil] at hm; simp at hm
        · have hcnt : best = none := by
            by_contra hbn
            have : ∀ (ms : List Mld) (ctx ctx' : Ctx) (ss ss' : SlotSet) (best best' : Option Best) (n n' : Nat),
                assignLoop job hy minStart ms ctx ss best n = some (ctx', ss', best', n') →
                n' ≤ n + ms.length ∧ (best = none → best' ≠ none → n' < n + ms.length) := by
              intro ms
              induction ms with
              | nil =>
                intro ctx ctx' ss ss' best best' n n' h
                simp only [assignLoop, Option.some.injEq, Prod.mk.injEq] at h
                obtain ⟨_, _, rfl, rfl⟩ := h
                exact ⟨by simp, fun a b => absurd a b⟩
              | cons m ms ih =>
                intro ctx ctx' ss ss' best best' n n' h
                unfold assignLoop at h
                split at h
                · simp at h
                · obtain ⟨q1, q2⟩ := ih _ _ _ _ _ _ _ _ h
                  simp only [List.length_cons]
                  exact ⟨by omega, fun a b => by have := q2 a b; omega⟩
                · split at h
                  · simp at h
                  · dsimp only at h
                    split at h
                    · split at h
                      · simp at h
                      · obtain ⟨q1, q2⟩ := ih _ _ _ _ _ _ _ _ h
                        simp only [List.length_cons]
                        exact ⟨by omega, fun a b => by omega⟩
                    · obtain ⟨q1, q2⟩ := ih _ _ _ _ _ _ _ _ h
                      simp only [List.length_cons]
                      exact ⟨by omega, fun a b => by omega⟩
            have := (this _ _ _ _ _ _ _ _ _ hl).2 rfl hbn
            omega
          rcases g3 with ⟨_, k2⟩ | ⟨pre, b, post, _, k2, _⟩
          · intro m hm t ht hfe
            have h1 := k2 m hm t ht hfe
            have hw : 0 < m.walltime ∨ m.walltime ≤ 0 := by omega
            rcases hw with hw | hw
            · have := feasible_hi hwf hw (hok m hm) hfe
              simp only [bestFinish] at h1
              omega
            · -- such a request raises before
              exact absurd hl (by
                have : ∀ (ms : List Mld) (ctx : Ctx) (ss : SlotSet) (best : Option Best) (n : Nat), NoQuotas ctx job →
                    m ∈ ms → assignLoop job hy minStart ms ctx ss best n = none := by
                  intro ms
                  induction ms with
                  | nil => intro _ _ _ _ _ hm; simp at hm
                  | cons m' ms ih =>
                    intro ctx ss best n hnq hm
                    unfold assignLoop
                    rw [findFirst_noQuotas hnq]
                    rcases List.mem_cons.1 hm with rfl | hm
                    · have : findNoQuotas ss job m hy minStart = none := by
                        unfold findNoQuotas
                        split
                        · rfl
                        · have : ∀ sid, ss.traverseWidth m.walltime sid = none := by
                            intro sid
                            unfold SlotSet.traverseWidth
                            rw [if_neg (by omega)]
                          rw [this]
                      rw [this]
                      rfl
                    · cases findNoQuotas ss job m' hy minStart with
                      | none => rfl
                      | some y =>
                        obtain ⟨ss1, res⟩ := y
                        cases res with
                        | none => exact ih _ _ _ _ hnq hm
                        | some r =>
                          simp only [Option.map_some]
                          split
                          · rfl
                          · split
                            · split
                              · rfl
                              · exact ih _ _ _ _ hnq hm
                            · exact ih _ _ _ _ hnq hm
                rw [this _ _ _ _ _ hnq hm]
                simp)
          · rw [hcnt] at k2; simp at k2
      · split at h
        · simp at h
        · rename_i b
          dsimp only at h
          split at h
          · simp at h
          · simp only [Option.some.injEq, Prod.mk.injEq] at h
            obtain ⟨rfl, rfl, rfl⟩ := h
            rcases g3 with ⟨k1, _⟩ | ⟨pre, b', post, k1, k2, k3, k4, k5, k6, k7⟩
            · simp at k1
            · obtain rfl := Option.some.inj k2
              right
              refine ⟨pre, b.mld, post, k1, rfl, rfl, ?_, ?_, b.res, rfl, k7⟩
              · rw [k3] at k5
                have : b.start + b.mld.walltime - 1 + 1 = b.start + b.mld.walltime := by omega
                rw [this] at k5
                exact k5
              · rw [k3] at k6; exact k6

end Oar.Kao
