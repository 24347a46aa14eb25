import Verif.QuotasProps
import Verif.SchedProps

/-!
# C15 for the assignment of a job: after the assignment the quotas of its rule are respected at every date of its window
(no quotas calendar)
-/

namespace Oar.Kao
open Spec Oar.Hierarchy Oar.Quotas

/-- The quota check accepted the window `[start, start + w)` for these resources. -/
def QuotaOk (env : Env) (ss : SlotSet) (job : Job) (R : ProcSet) (start w : Int) : Prop :=
  ∃ l t i r a z, Partition ss (l ++ (a :: t) ++ r) ∧ a :: t = i ++ [z] ∧ a.b = start ∧ start + w - 1 ≤ z.e ∧
    checkSlots env ((a :: t).map Slot.q) job.qjob (R ∩ env.defaultItvs).card w = none

theorem quotasLoop_ok {job : Job} {mld : Mld} {hy : Hy} : ∀ (fuel : Nat) (ctx ctx' : Ctx) (ss ss' : SlotSet)
    (cur : Slot) (R : ProcSet) (a b : Nat) (l r : List Slot), ctx.cal = none → Partition ss (l ++ cur :: r) →
    quotasLoop job mld hy fuel ctx ss cur = some (ctx', ss', some (R, a, b)) →
    ∃ s ∈ ss.slots, s.id = a ∧ QuotaOk ctx.env ss job R s.b mld.walltime
  | 0, _, _, _, _, _, _, _, _, _, _, _, _, h => by simp [quotasLoop] at h
  | fuel + 1, ctx, ctx', ss, ss', cur, R, a, b, l, r, hcal, hp, h => by
    have hcont : (if cur.next = 0 then some (ctx, ss, none)
          else
            match ss.get? cur.id with
            | none => none
            | some cur' =>
              match ss.get? cur'.next with
              | none => none
              | some nxt => quotasLoop job mld hy fuel ctx ss nxt) = some (ctx', ss', some (R, a, b)) →
        ∃ s ∈ ss.slots, s.id = a ∧ QuotaOk ctx.env ss job R s.b mld.walltime := by
      intro hc
      split at hc
      · simp at hc
      · rename_i hne
        rw [hp.get (s := cur) (by simp)] at hc
        dsimp only at hc
        cases r with
        | nil => exact absurd hp.next_last hne
        | cons y r =>
          obtain ⟨_, _, h3⟩ := hp.next_cons
          rw [h3] at hc
          dsimp only at hc
          exact quotasLoop_ok fuel _ _ _ _ _ _ _ _ (l ++ [cur]) r hcal (by simpa using hp) hc
    unfold quotasLoop at h
    dsimp only at h
    cases hend : ss.endFor mld.walltime cur with
    | none => rw [hend] at h; exact hcont h
    | some e =>
      rw [hend] at h
      dsimp only at h
      have hfind : (cur :: r).find? (fun e => decide (e.e - cur.b + 1 ≥ mld.walltime)) = some e := by
        unfold SlotSet.endFor at hend
        rwa [traverse_from hp rfl] at hend
      obtain ⟨P, Q, hs, hP, hz⟩ := find_split hfind
      have hz' : mld.walltime ≤ e.e - cur.b + 1 := by simpa using hz
      have hqp : quotasPrepare ctx ss cur e = some (some (ctx, ss)) := by
        unfold quotasPrepare; rw [hcal]
      rw [hqp] at h
      dsimp only at h
      split at h
      · simp at h
      · split at h
        · simp at h
        · split at h
          · split at h
            · rename_i hck
              simp only [Option.some.injEq, Prod.mk.injEq] at h
              obtain ⟨_, _, rfl, rfl, rfl⟩ := h
              refine ⟨cur, hp.mem_iff.2 (by simp), rfl, ?_⟩
              obtain ⟨t, ht⟩ : ∃ t, P ++ [e] = cur :: t := by
                cases P with
                | nil =>
                  simp only [List.nil_append, List.cons.injEq] at hs
                  exact ⟨[], by simp [hs.1]⟩
                | cons x P =>
                  simp only [List.cons_append, List.cons.injEq] at hs
                  exact ⟨P ++ [e], by simp [hs.1]⟩
              have hp2 : Partition ss (l ++ (cur :: t) ++ Q) := by
                rw [← ht]
                have : l ++ (P ++ [e]) ++ Q = l ++ cur :: r := by rw [hs]; simp
                rw [this]; exact hp
              refine ⟨l, t, P, Q, cur, e, hp2, ht.symm, rfl, by omega, ?_⟩
              rw [traverse_range hp2 ht.symm] at hck
              exact hck
            · exact hcont h
          · exact hcont h

theorem findFirst_quota {ctx ctx' : Ctx} {ss ss' : SlotSet} (hwf : WF ss) (hci : CacheIds ss)
    {job : Job} {mld : Mld} {hy : Hy} {minStart : Int} {res : Option (ProcSet × Nat × Nat)}
    (hcal : ctx.cal = none) (hen : ctx.env.enabled = true) (hnq : job.noQuotas = false)
    (hf : findFirst ctx ss job mld hy minStart = some (ctx', ss', res)) :
    ctx' = ctx ∧ ss' = ss ∧ ∀ R a b, res = some (R, a, b) →
      ∃ s ∈ ss.slots, s.id = a ∧ QuotaOk ctx.env ss job R s.b mld.walltime := by
  obtain ⟨c, hc⟩ := hwf
  unfold findFirst at hf
  rw [if_pos ⟨hen, hnq⟩] at hf
  unfold findQuotas at hf
  split at hf
  · simp at hf
  · rename_i sid hsid
    split at hf
    · rename_i hw
      obtain ⟨l, s, r, e, hst, _, hg⟩ := searchStart_spec hc hci hsid _ hw
      rw [hg] at hf
      dsimp only at hf
      obtain ⟨rfl, rfl⟩ := quotasLoop_noCal _ _ _ _ _ _ _ hcal hf
      refine ⟨rfl, rfl, ?_⟩
      intro R a b eq
      subst eq
      exact quotasLoop_ok _ _ _ _ _ _ _ _ _ l r hcal (e ▸ hc) hf
    · simp at hf

theorem assignLoop_quota {job : Job} {hy : Hy} {minStart : Int} (hnq : job.noQuotas = false) :
    ∀ (ms : List Mld) (ctx ctx' : Ctx) (ss ss' : SlotSet) (best best' : Option Best) (n n' : Nat),
    WF ss → CacheIds ss → ctx.cal = none → ctx.env.enabled = true →
    (∀ b, best = some b → QuotaOk ctx.env ss job b.res b.start b.mld.walltime) →
    assignLoop job hy minStart ms ctx ss best n = some (ctx', ss', best', n') →
    ctx' = ctx ∧ ss' = ss ∧ ∀ b, best' = some b → QuotaOk ctx.env ss job b.res b.start b.mld.walltime
  | [], ctx, ctx', ss, ss', best, best', n, n', _, _, _, _, hb, h => by
    simp only [assignLoop, Option.some.injEq, Prod.mk.injEq] at h
    obtain ⟨rfl, rfl, rfl, rfl⟩ := h
    exact ⟨rfl, rfl, hb⟩
  | m :: ms, ctx, ctx', ss, ss', best, best', n, n', hwf, hci, hcal, hen, hb, h => by
    unfold assignLoop at h
    cases hf : findFirst ctx ss job m hy minStart with
    | none => rw [hf] at h; simp at h
    | some y =>
      obtain ⟨ctx1, ss1, res⟩ := y
      obtain ⟨rfl, rfl, hres⟩ := findFirst_quota hwf hci hcal hen hnq hf
      rw [hf] at h
      cases res with
      | none => exact assignLoop_quota hnq ms _ _ _ _ _ _ _ _ hwf hci hcal hen hb h
      | some r =>
        obtain ⟨R, a, z⟩ := r
        dsimp only at h
        obtain ⟨s, hs, hid, hq⟩ := hres R a z rfl
        have hg : ss1.get? a = some s := by
          obtain ⟨c, hc⟩ := hwf
          rw [← hid]; exact hc.get (hc.mem_iff.1 hs)
        rw [hg] at h
        dsimp only at h
        split at h
        · split at h
          · simp at h
          · refine assignLoop_quota hnq ms _ _ _ _ _ _ _ _ hwf hci hcal hen ?_ h
            intro b hbb
            simp only [Option.some.injEq] at hbb
            subst hbb
            exact hq
        · exact assignLoop_quota hnq ms _ _ _ _ _ _ _ _ hwf hci hcal hen hb h

/-- Counting a job that is not a container in a slot updates the counters of the slot. -/
theorem effect_counters (ctx : Ctx) (job : Job) (w : Int) (R : ProcSet) (p : Pay) (hen : ctx.env.enabled = true)
    (hct : job.hasType "container" = false) :
    (effect ctx job w R true p).counters =
      update ctx.env.jobTypes job.qjob (R ∩ ctx.env.defaultItvs).card w p.counters := by
  have hct' : ¬ (job.hasType "container" = true) := by rw [hct]; simp
  simp only [effect, if_true, subSlot, Slot.pay, Pay.toSlot]
  rw [if_pos ⟨hen, hct'⟩]

/-- The slots of a timeline without calendar: the default rules everywhere, and counters obtained by counting jobs. -/
def QuotaSlots (env : Env) (ss : SlotSet) : Prop :=
  ∀ s ∈ ss.slots, s.q.rulesId = -1 ∧ s.q.rules = env.defaultRules ∧ Keyed s.q.counters ∧ NonNeg s.q.counters

/-- **C15.** No quotas calendar. When a job (neither timesharing, placeholder, container nor exempt from quotas) has
been assigned, then at every date of its window the counters of the timeline, in which it is now counted, do not exceed
the limits of the rule that applies to it. -/
theorem assigned_within_quotas_partial (ctx ctx' : Ctx) (ss ss' : SlotSet) (job job' : Job) (hy : Hy) (minStart w : Int)
    (R : ProcSet) (hp : Plain job) (hwf : WF ss) (hci : CacheIds ss) (hend : ss.end_ < largeEnough)
    (hcal : ctx.cal = none) (hen : ctx.env.enabled = true) (hnq : job.noQuotas = false)
    (hct : job.hasType "container" = false) (hqs : QuotaSlots ctx.env ss)
    (h : assign ctx ss job hy minStart = some (ctx', ss', job'))
    (hplaced : job'.resSet = some R) (hne : R ≠ ∅) (hw : job'.walltime = some w) (rl : Cnt) (k : Key)
    (ha : findApplicable ctx.env.jobTypes ctx.env.defaultRules job.qjob = some (rl, k))
    (hk : InClass ctx.env.jobTypes job.qjob k) (t : Int) (h1 : job'.startTime ≤ t) (h2 : t < job'.startTime + w)
    (s' : Slot) (hs' : s' ∈ ss'.slots) (h3 : s'.b ≤ t) (h4 : t ≤ s'.e) :
    Within rl.res (value s'.q.counters k).res ∧ Within rl.jobs (value s'.q.counters k).jobs ∧
    Within rl.time (value s'.q.counters k).time := by
  unfold assign at h
  split at h
  · simp at h
  · split at h
    · simp at h
    · rename_i ctx1 ss1 best n hl
      obtain ⟨g1, g2, g3, g4⟩ := assignLoop_spec hp job.mlds job.mlds _ _ _ _ _ _ _ _ (fun _ hm => hm) hwf hci hend
        (Or.inl hcal) (by simp) hl
      obtain ⟨rfl, rfl, g5⟩ := assignLoop_quota hnq _ _ _ _ _ _ _ _ _ hwf hci hcal hen (by simp) hl
      split at h
      · simp only [Option.some.injEq, Prod.mk.injEq] at h
        obtain ⟨rfl, rfl, rfl⟩ := h
        simp only [Option.some.injEq] at hplaced
        exact absurd hplaced.symm hne
      · split at h
        · simp at h
        · rename_i b
          dsimp only at h
          split at h
          · simp at h
          · rename_i ss2 hsp
            simp only [Option.some.injEq, Prod.mk.injEq] at h
            obtain ⟨rfl, rfl, rfl⟩ := h
            simp only [Option.some.injEq] at hplaced hw
            subst hplaced
            subst hw
            have hb := g3 b rfl
            have hpos := hb.pos
            have hwin := hb.win
            rw [hb.fin] at hwin
            obtain ⟨ss3, k1, k2, k3, k4, k5, extra, k6, k7⟩ := split_window (ctx := ctx1) (R := b.res) (sub := true)
              (job := { job with moldableId := b.mld.id, resSet := some b.res, startTime := b.start,
                                 walltime := some b.mld.walltime }) (by omega) hwin
            rw [k1, Option.some.injEq] at hsp
            subst hsp
            dsimp only at h1 h2 k7
            -- the slot of the window at date t, before the insertion
            obtain ⟨l, tl, i, r, a, z, q1, q2, q3, q4, q5⟩ := g5 b rfl
            obtain ⟨m, m', _, hT2, _⟩ := tiled_seg q1.tiled
            have hm : a.b = m := hT2.1
            have hm' : m' = z.e := tiled_last i z m m' (q2 ▸ hT2)
            obtain ⟨l', y, r', e, hy1, hy2⟩ := tiled_cover _ _ _ t hT2 (by omega) (by omega)
            have hy0 : y ∈ a :: tl := by rw [e]; simp
            have hyc : y ∈ l ++ (a :: tl) ++ r := by
              simp only [List.mem_append]; exact Or.inl (Or.inr hy0)
            have hpy : ss1.pay t = some y.pay := by
              rw [pay_chain q1]; exact payAt_of_mem q1.tiled hyc hy1 hy2
            have hps : ss3.pay t = some s'.pay := by
              obtain ⟨c', hc'⟩ := k2
              rw [pay_chain hc']; exact payAt_of_mem hc'.tiled (hc'.mem_iff.1 hs') h3 h4
            have hk7 := k7 t
            rw [hps, hpy, Option.map_some, Option.some.injEq, if_pos ⟨h1, Or.inl h2⟩] at hk7
            have hcnt : s'.q.counters = update ctx1.env.jobTypes job.qjob (b.res ∩ ctx1.env.defaultItvs).card
                b.mld.walltime y.q.counters :=
              (congrArg Pay.counters hk7).trans (effect_counters ctx1 _ b.mld.walltime b.res y.pay hen hct)
            rw [hcnt]
            have hsl : ∀ q ∈ (a :: tl).map Slot.q, Keyed q.counters ∧ NonNeg q.counters := by
              intro q hq
              obtain ⟨s, hs, rfl⟩ := List.mem_map.1 hq
              have := hqs s (q1.mem_iff.2 (by simp only [List.mem_append]; exact Or.inl (Or.inr hs)))
              exact this.2.2
            have hrules : rulesOf ctx1.env ((a :: tl).map Slot.q) y.q.rulesId = ctx1.env.defaultRules := by
              have hyq := hqs y (q1.mem_iff.2 hyc)
              have haq := hqs a (q1.mem_iff.2 (by simp))
              unfold rulesOf
              rw [hyq.1, List.map_cons, List.find?_cons_of_pos (by simp [haq.1])]
              dsimp only
              rw [haq.2.1]
              split <;> rfl
            have := accepted_within_quotas_partial ctx1.env _ job.qjob _ b.mld.walltime (by omega) (by omega) hsl q5 y.q
              (List.mem_map_of_mem (f := Slot.q) hy0) rl k (by rw [hrules]; exact ha) hk
            exact ⟨this.1, this.2.1, this.2.2.1⟩

/-- At most two resources at a time for a user. -/
def ctxQ : Ctx := ⟨⟨true, [(⟨"*", "*", "*", "/"⟩, ⟨2, -1, -1⟩)], ["*"], {1, 2, 3, 4}⟩, none⟩
def ssQ : SlotSet := SlotSet.ofItvs ctxQ {1, 2, 3, 4} 0
def jobQ (i : Nat) : Job := { wjob i 2 10 with user := "john" }

-- john's second job waits for the end of the first one, and the hypotheses are met
example : ((assign ctxQ ssQ (jobQ 1) hy4 (-1)).bind (fun x => assign ctxQ x.2.1 (jobQ 2) hy4 (-1))).map
    (fun x => (x.2.2.startTime, x.2.2.walltime, x.2.2.resSet)) = some (10, some 10, some {1, 2}) := by decide
example : ((assign ctxQ ssQ (jobQ 1) hy4 (-1)).bind (fun x => assign ctxQ x.2.1 { jobQ 2 with user := "mary" } hy4 (-1))).map
    (fun x => (x.2.2.startTime, x.2.2.walltime, x.2.2.resSet)) = some (0, some 10, some {3, 4}) := by decide
example : QuotaSlots ctxQ.env ssQ ∧ Plain (jobQ 1) ∧ WF ssQ ∧ ssQ.end_ < largeEnough ∧
    findApplicable ctxQ.env.jobTypes ctxQ.env.defaultRules (jobQ 1).qjob = some (⟨2, -1, -1⟩, ⟨"*", "*", "*", "john"⟩) ∧
    InClass ctxQ.env.jobTypes (jobQ 1).qjob ⟨"*", "*", "*", "john"⟩ := by
  refine ⟨?_, ⟨rfl, by decide⟩, (fresh_wf ctxQ _ 0 0).1 (by decide), by decide, by decide, by decide⟩
  intro s hs
  have : s = (ssQ.slots.head (by decide)) := by
    simp only [ssQ, SlotSet.ofItvs] at hs ⊢
    simpa using hs
  subst this
  refine ⟨by decide, by decide, ?_, ?_⟩
  · simp [Keyed, ssQ, SlotSet.ofItvs, freshQuotas]
  · exact nonneg_nil

end Oar.Kao
