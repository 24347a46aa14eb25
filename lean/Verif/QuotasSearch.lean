import Verif.TemporalLemmas

/-!
# The search with quotas
-/

namespace Oar.Kao
open Spec Oar.Hierarchy

/-- `ss'` is `ss` with some slots cut: well formed, same content at every date (up to quotas rules), same bounds and
cache, and every slot still begins at the same date. -/
structure Frame (ss ss' : SlotSet) : Prop where
  wf : WF ss'
  pay : SamePay ss ss'
  meta_ : SameMeta ss ss'
  begins : KeepsBegins ss ss'

theorem Frame.refl {ss : SlotSet} (h : WF ss) : Frame ss ss :=
  ⟨h, fun _ => rfl, ⟨rfl, rfl, rfl⟩, KeepsBegins.refl ss⟩

theorem Frame.trans {a b c : SlotSet} (h1 : Frame a b) (h2 : Frame b c) : Frame a c :=
  ⟨h2.wf, h1.pay.trans h2.pay, h1.meta_.trans h2.meta_, h1.begins.trans h2.begins⟩

theorem Frame.free {ss ss' : SlotSet} (h : WF ss) (f : Frame ss ss') (t : Int) (x : Nat) :
    Free ss' t x ↔ Free ss t x := f.pay.free h f.wf t x

theorem Frame.freeDuring {ss ss' : SlotSet} (h : WF ss) (f : Frame ss ss') (t w : Int) (x : Nat) :
    FreeDuring ss' t w x ↔ FreeDuring ss t w x := by
  constructor
  · intro hx u h1 h2; exact (f.free h u x).1 (hx u h1 h2)
  · intro hx u h1 h2; exact (f.free h u x).2 (hx u h1 h2)

theorem Frame.answers {ss ss' : SlotSet} (h : WF ss) (f : Frame ss ss') {hy : Hy} {groups : List Group} {w t : Int}
    {R : ProcSet} : Answers ss' hy groups w t R ↔ Answers ss hy groups w t R := by
  have e := f.freeDuring h
  constructor
  · rintro ⟨h1, h2, h3, h4, A, h5, h6⟩
    exact ⟨fun x hx => (e t w x).1 (h1 x hx), h2, f.meta_.1 ▸ h3, f.meta_.2.1 ▸ h4, A,
      fun x => (h5 x).trans (e t w x), h6⟩
  · rintro ⟨h1, h2, h3, h4, A, h5, h6⟩
    exact ⟨fun x hx => (e t w x).2 (h1 x hx), h2, f.meta_.1.symm ▸ h3, f.meta_.2.1.symm ▸ h4, A,
      fun x => (h5 x).trans (e t w x).symm, h6⟩

theorem Frame.feasible {ss ss' : SlotSet} (h : WF ss) (f : Frame ss ss') {hy : Hy} {groups : List Group} {w t : Int} :
    Feasible ss' hy groups w t ↔ Feasible ss hy groups w t := by
  have e := f.freeDuring h
  constructor
  · rintro ⟨A, h1, h2⟩; exact ⟨A, fun x => (h1 x).trans (e t w x), h2⟩
  · rintro ⟨A, h1, h2⟩; exact ⟨A, fun x => (h1 x).trans (e t w x).symm, h2⟩

theorem quotasPrepare_part {ctx ctx1 : Ctx} {ss ss1 : SlotSet} {l P Q : List Slot} {cur e : Slot}
    (h : Partition ss (l ++ (P ++ e :: Q)))
    (hq : quotasPrepare ctx ss cur e = some (some (ctx1, ss1))) :
    ctx1.env = ctx.env ∧ Frame ss ss1 ∧
    ∃ e' Q', Partition ss1 (l ++ (P ++ e' :: Q')) ∧ e'.id = e.id ∧ e'.b = e.b ∧ e'.e ≤ e.e ∧ e'.itvs = e.itvs ∧
      e'.ts = e.ts ∧ e'.ph = e.ph := by
  have hwf : WF ss := ⟨_, h⟩
  have hsame : ctx1 = ctx → ss1 = ss → ctx1.env = ctx.env ∧ Frame ss ss1 ∧
      ∃ e' Q', Partition ss1 (l ++ (P ++ e' :: Q')) ∧ e'.id = e.id ∧ e'.b = e.b ∧ e'.e ≤ e.e ∧ e'.itvs = e.itvs ∧
      e'.ts = e.ts ∧ e'.ph = e.ph := by
    rintro rfl rfl
    exact ⟨rfl, Frame.refl hwf, e, Q, h, rfl, rfl, le_refl _, rfl, rfl, rfl⟩
  unfold quotasPrepare at hq
  split at hq
  · simp only [Option.some.injEq, Prod.mk.injEq] at hq
    exact hsame hq.1.symm hq.2.symm
  · split at hq
    · simp at hq
    · split at hq
      · split at hq
        · simp at hq
        · rename_i c' rid rem _
          split at hq
          · simp at hq
          · rename_i ctx' ss' x1 x2 hts
            simp only [Option.some.injEq, Prod.mk.injEq] at hq
            obtain ⟨rfl, rfl⟩ := hq
            have h' : Partition ss ((l ++ P) ++ e :: Q) := by simpa using h
            obtain ⟨⟨s', r', q1, q2⟩, q3, q4, q5, q6⟩ := temporalSplit_part _ _ _ _ _ _ _ _ _ h' hts
            exact ⟨q6, ⟨⟨_, q1⟩, q3, q4, q5⟩, s', r', by simpa using q1, q2⟩
      · simp only [Option.some.injEq, Prod.mk.injEq] at hq
        exact hsame hq.1.symm hq.2.symm

/-- What the search with quotas guarantees. -/
def QFound (job : Job) (mld : Mld) (hy : Hy) (env : Quotas.Env) (lo : Int) (ss' : SlotSet)
    (res : Option (ProcSet × Nat × Nat)) : Prop :=
  ∀ R a b, res = some (R, a, b) → ∃ s ∈ ss'.slots, s.id = a ∧ lo ≤ s.b ∧
    Answers ss' hy mld.groups mld.walltime s.b R ∧
    Quotas.checkSlots env ((ss'.traverse a b).map Slot.q) job.qjob (R ∩ env.defaultItvs).card mld.walltime = none

theorem QFound.mono {job : Job} {mld : Mld} {hy : Hy} {env : Quotas.Env} {lo lo' : Int} {ss' : SlotSet}
    {res : Option (ProcSet × Nat × Nat)} (h : QFound job mld hy env lo ss' res) (hl : lo' ≤ lo) :
    QFound job mld hy env lo' ss' res := by
  intro R a b e
  obtain ⟨s, h1, h2, h3, h4⟩ := h R a b e
  exact ⟨s, h1, h2, by omega, h4⟩

theorem quotasLoop_sound {job : Job} {mld : Mld} {hy : Hy} (hw : 0 < mld.walltime) :
    ∀ (fuel : Nat) (ctx ctx' : Ctx) (ss ss' : SlotSet) (cur : Slot) (res : Option (ProcSet × Nat × Nat)) (l r : List Slot),
    Partition ss (l ++ cur :: r) → quotasLoop job mld hy fuel ctx ss cur = some (ctx', ss', res) →
    ctx'.env = ctx.env ∧ Frame ss ss' ∧ (Plain job → QFound job mld hy ctx.env cur.b ss' res)
  | 0, _, _, _, _, _, _, _, _, _, h => by simp [quotasLoop] at h
  | fuel + 1, ctx, ctx', ss, ss', cur, res, l, r, hp, h => by
    have hwf : WF ss := ⟨_, hp⟩
    have hcont : ∀ (ctx1 : Ctx) (ss1 : SlotSet), ctx1.env = ctx.env → Frame ss ss1 →
        (if cur.next = 0 then some (ctx1, ss1, none)
          else
            match ss1.get? cur.id with
            | none => none
            | some cur' =>
              match ss1.get? cur'.next with
              | none => none
              | some nxt => quotasLoop job mld hy fuel ctx1 ss1 nxt) = some (ctx', ss', res) →
        ctx'.env = ctx.env ∧ Frame ss ss' ∧ (Plain job → QFound job mld hy ctx.env cur.b ss' res) := by
      intro ctx1 ss1 henv hfr hc
      split at hc
      · simp only [Option.some.injEq, Prod.mk.injEq] at hc
        obtain ⟨rfl, rfl, rfl⟩ := hc
        exact ⟨henv, hfr, fun _ R a b e => by simp at e⟩
      · split at hc
        · simp at hc
        · rename_i cur' hg
          split at hc
          · simp at hc
          · rename_i nxt hg2
            obtain ⟨c1, hc1⟩ := hfr.wf
            obtain ⟨hm, hid⟩ := get_mem hg
            obtain ⟨l1, r1, e1⟩ := List.append_of_mem (hc1.mem_iff.1 hm)
            subst e1
            have hlink := hc1.link.1
            cases r1 with
            | nil =>
              have : cur'.next = 0 := hlink
              rw [this, hc1.get_zero] at hg2
              simp at hg2
            | cons y r1 =>
              obtain ⟨_, _, hy'⟩ := hc1.next_cons
              rw [hy', Option.some.injEq] at hg2
              subst hg2
              have hadj := tiled_adj hc1.tiled
              have hbe := ((tiled_bounds _ _ _ hc1.tiled).2 cur' (by simp)).2.1
              obtain ⟨s2, hs2, h3, h4⟩ := hfr.begins cur (hp.mem_iff.2 (by simp))
              have : s2 = cur' := id_inj hc1 (hc1.mem_iff.1 hs2) (by simp) (by rw [h3, hid])
              subst this
              have hp' : Partition ss1 ((l1 ++ [s2]) ++ y :: r1) := by simpa using hc1
              obtain ⟨g1, g2, g3⟩ := quotasLoop_sound hw fuel _ _ _ _ _ _ _ _ hp' hc
              refine ⟨g1.trans henv, hfr.trans g2, fun hpl => ?_⟩
              have := g3 hpl
              rw [henv] at this
              exact this.mono (by omega)
    unfold quotasLoop at h
    dsimp only at h
    cases hend : ss.endFor mld.walltime cur with
    | none =>
      rw [hend] at h
      exact hcont ctx ss rfl (Frame.refl hwf) h
    | some e =>
      rw [hend] at h
      dsimp only at h
      have hfind : (cur :: r).find? (fun e => decide (e.e - cur.b + 1 ≥ mld.walltime)) = some e := by
        unfold SlotSet.endFor at hend
        rwa [traverse_from hp rfl] at hend
      obtain ⟨P, Q, hs, hP, hz⟩ := find_split hfind
      have hP' : ∀ x ∈ P, x.e - cur.b + 1 < mld.walltime := by
        intro x hx
        have := hP x hx
        simp only [ge_iff_le, decide_eq_false_iff_not] at this
        omega
      have hz' : mld.walltime ≤ e.e - cur.b + 1 := by simpa using hz
      have hp2 : Partition ss (l ++ (P ++ e :: Q)) := by rw [← hs]; exact hp
      cases hqp : quotasPrepare ctx ss cur e with
      | none => rw [hqp] at h; simp at h
      | some o =>
        cases o with
        | none =>
          rw [hqp] at h
          simp only [Option.some.injEq, Prod.mk.injEq] at h
          obtain ⟨rfl, rfl, rfl⟩ := h
          exact ⟨rfl, Frame.refl hwf, fun _ R a b e => by simp at e⟩
        | some y =>
          obtain ⟨ctx1, ss1⟩ := y
          rw [hqp] at h
          dsimp only at h
          obtain ⟨henv, hfr, e', Q', hp3, q1, q2, q3, q4, _, _⟩ := quotasPrepare_part hp2 hqp
          split at h
          · simp at h
          · rename_i av hav
            split at h
            · simp at h
            · rename_i R hR
              split at h
              · rename_i hc
                split at h
                · rename_i hck
                  simp only [Option.some.injEq, Prod.mk.injEq] at h
                  obtain ⟨rfl, rfl, rfl⟩ := h
                  refine ⟨henv, hfr, ?_⟩
                  intro hpl R' a b eq
                  simp only [Option.some.injEq, Prod.mk.injEq] at eq
                  obtain ⟨rfl, rfl, rfl⟩ := eq
                  obtain ⟨s2, hs2, h3, h4⟩ := hfr.begins cur (hp.mem_iff.2 (by simp))
                  refine ⟨s2, hs2, h3, by omega, ?_, by rw [← henv]; exact hck⟩
                  rw [available_plain hpl] at hav
                  -- the segment in the new timeline
                  obtain ⟨a, t, ht, haid⟩ : ∃ a t, P ++ [e'] = a :: t ∧ a.id = cur.id := by
                    cases P with
                    | nil =>
                      simp only [List.nil_append, List.cons.injEq] at hs
                      exact ⟨e', [], rfl, by rw [q1, ← hs.1]⟩
                    | cons x P =>
                      simp only [List.cons_append, List.cons.injEq] at hs
                      exact ⟨x, P ++ [e'], rfl, by rw [← hs.1]⟩
                  have e3 : l ++ (P ++ e' :: Q') = l ++ (a :: t) ++ Q' := by rw [← ht]; simp
                  obtain ⟨A, hA, hx⟩ := intersec_seg hp3 e3 ht.symm
                  rw [haid, q1, hav, Option.some.injEq] at hA
                  subst hA
                  have hfd : ∀ x, x ∈ av ↔ FreeDuring ss cur.b mld.walltime x := by
                    intro x
                    rw [hx, ← ht, ← segment_free hp hw rfl hs hP' hz' x]
                    simp only [List.mem_append, List.mem_singleton]
                    constructor
                    · rintro h5 s (h6 | rfl)
                      · exact h5 s (Or.inl h6)
                      · rw [← q4]; exact h5 e' (Or.inr rfl)
                    · rintro h5 s (h6 | rfl)
                      · exact h5 s (Or.inl h6)
                      · rw [q4]; exact h5 e (Or.inr rfl)
                  have hsub := findJob_subset av hy _ R hR
                  have hb := (tiled_bounds _ _ _ hp.tiled).2
                  have hcb := hb cur (by simp)
                  have heb := hb e (by rw [hs]; simp)
                  rw [h4, hfr.answers hwf]
                  exact ⟨fun x hx => (hfd x).1 (hsub hx), by rwa [Ne, Finset.card_eq_zero] at hc, hcb.1, by omega,
                    av, hfd, hR⟩
                · exact hcont ctx1 ss1 henv hfr h
              · exact hcont ctx1 ss1 henv hfr h

/-- The result of the search for one alternative, with or without quotas. -/
structure Searched (ctx ctx' : Ctx) (ss ss' : SlotSet) (job : Job) (mld : Mld) (hy : Hy) (minStart : Int)
    (res : Option (ProcSet × Nat × Nat)) : Prop where
  env : ctx'.env = ctx.env
  width : 0 < mld.walltime
  wf : WF ss'
  pay : SamePay ss ss'
  bounds : ss'.begin_ = ss.begin_ ∧ ss'.end_ = ss.end_
  begins : KeepsBegins ss ss'
  found : Plain job → ∀ R a b, res = some (R, a, b) → ∃ s ∈ ss'.slots, s.id = a ∧
    Answers ss' hy mld.groups mld.walltime s.b R ∧ ∃ s0 ∈ ss.slots, StartsAt ss job mld minStart s0 ∧ s0.b ≤ s.b

theorem findQuotas_spec {ctx ctx' : Ctx} {ss ss' : SlotSet} {c : List Slot} (h : Partition ss c) (hci : CacheIds ss)
    {job : Job} {mld : Mld} {hy : Hy} {minStart : Int} {res : Option (ProcSet × Nat × Nat)}
    (hf : findQuotas ctx ss job mld hy minStart = some (ctx', ss', res)) :
    0 < mld.walltime ∧ ctx'.env = ctx.env ∧ Frame ss ss' ∧
    ∃ s0 ∈ c, StartsAt ss job mld minStart s0 ∧ (Plain job → QFound job mld hy ctx.env s0.b ss' res) := by
  unfold findQuotas at hf
  split at hf
  · simp at hf
  · rename_i sid hsid
    split at hf
    · rename_i hw
      obtain ⟨l, s, r, e, hst, _, hg⟩ := searchStart_spec h hci hsid _ hw
      rw [hg] at hf
      dsimp only at hf
      obtain ⟨g1, g2, g3⟩ := quotasLoop_sound hw _ _ _ _ _ _ _ l r (e ▸ h) hf
      exact ⟨hw, g1, g2, s, by rw [e]; simp, hst, g3⟩
    · simp at hf

theorem findFirst_spec {ctx ctx' : Ctx} {ss ss' : SlotSet} (hwf : WF ss) (hci : CacheIds ss)
    {job : Job} {mld : Mld} {hy : Hy} {minStart : Int} {res : Option (ProcSet × Nat × Nat)} (hpl : Plain job)
    (hf : findFirst ctx ss job mld hy minStart = some (ctx', ss', res)) :
    Searched ctx ctx' ss ss' job mld hy minStart res ∧ CacheIds ss' := by
  obtain ⟨c, hc⟩ := hwf
  unfold findFirst at hf
  split at hf
  · obtain ⟨h1, h2, h3, s0, h4, h5, h6⟩ := findQuotas_spec hc hci hf
    refine ⟨⟨h2, h1, h3.wf, h3.pay, ⟨h3.meta_.1, h3.meta_.2.1⟩, h3.begins, ?_⟩, ?_⟩
    · intro _ R a b e
      obtain ⟨s, g1, g2, g3, g4, _⟩ := h6 hpl R a b e
      exact ⟨s, g1, g2, g4, s0, hc.mem_iff.2 h4, h5, g3⟩
    · intro k i hk
      rw [h3.meta_.2.2] at hk
      obtain ⟨s, hs, rfl⟩ := hci k i hk
      obtain ⟨s', hs', e, _⟩ := h3.begins s hs
      exact ⟨s', hs', e⟩
  · simp only [Option.map_eq_some_iff, Prod.mk.injEq] at hf
    obtain ⟨⟨ss1, res1⟩, hf, rfl, rfl, rfl⟩ := hf
    obtain ⟨h1, h2, l, s, r, e, hst, hres⟩ := findNoQuotas_spec hc hci hpl hf
    have hs0 : s ∈ ss.slots := hc.mem_iff.2 (by rw [e]; simp)
    have hpay : SamePay ss ss1 := fun t => by
      simp only [SlotSet.pay, h2.1]
    refine ⟨⟨rfl, h1, ⟨c, h2.part hc⟩, hpay, ⟨h2.2.1, h2.2.2.1⟩,
      fun x hx => ⟨x, by rw [h2.1]; exact hx, rfl, rfl⟩, ?_⟩, ?_⟩
    · intro _ R a b eq
      rcases hres with ⟨h3, _⟩ | ⟨P, x, Q, R', z, g1, g2, g3, g4, g5, g6⟩
      · rw [h3] at eq; simp at eq
      · rw [g3] at eq
        simp only [Option.some.injEq, Prod.mk.injEq] at eq
        obtain ⟨rfl, rfl, rfl⟩ := eq
        have hxc : x ∈ c := by rw [e, g1]; simp
        have hfr : Frame ss ss1 → Answers ss1 hy mld.groups mld.walltime x.b R' := fun f => (f.answers ⟨c, hc⟩).2 g5
        have hfree : ∀ t y, Free ss1 t y ↔ Free ss t y := fun t y => by simp only [Free, h2.1]
        have hfd : ∀ t w y, FreeDuring ss1 t w y ↔ FreeDuring ss t w y := fun t w y => by
          simp only [FreeDuring, hfree]
        obtain ⟨a1, a2, a3, a4, A, a5, a6⟩ := g5
        refine ⟨x, by rw [h2.1]; exact hc.mem_iff.2 hxc, rfl, ⟨fun y hy => (hfd _ _ y).2 (a1 y hy), a2,
          by rw [h2.2.1]; exact a3, by rw [h2.2.2.1]; exact a4, A, fun y => (a5 y).trans (hfd _ _ y).symm, a6⟩,
          s, hs0, hst, ?_⟩
        cases P with
        | nil => simp only [List.nil_append, List.cons.injEq] at g1; rw [g1.1]
        | cons p P =>
          have hT := hc.tiled
          simp only [List.cons_append, List.cons.injEq] at g1
          rw [e, tiled_append] at hT
          obtain ⟨m, _, hT1, hT2, hT3⟩ := hT
          have := (tiled_bounds _ _ _ hT3).2 x (by rw [g1.2]; simp)
          omega
    · intro k i hk
      rw [h2.1]
      rcases hres with ⟨_, h3, _⟩ | ⟨P, x, Q, R', z, g1, g2, g3, g4, g5, g6⟩
      · rw [h3] at hk; exact hci k i hk
      · rcases g6 with ⟨g6, _⟩ | ⟨k', _, _, g6⟩
        · rw [g6] at hk; exact hci k i hk
        · rw [g6, lookup_dictSet] at hk
          split at hk
          · obtain rfl := Option.some.inj hk
            exact ⟨x, hc.mem_iff.2 (by rw [e, g1]; simp), rfl⟩
          · exact hci k i hk

end Oar.Kao
