import Verif.SchedAssign

/-!
# The loop over the moldable alternatives
-/

namespace Oar.Kao
open Spec Oar.Hierarchy

/-- The current choice is a valid placement of one of the alternatives. -/
structure BestOk (ss : SlotSet) (hy : Hy) (mlds : List Mld) (b : Best) : Prop where
  mem : b.mld ∈ mlds
  pos : 0 < b.mld.walltime
  fin : b.finish = b.start + b.mld.walltime - 1
  ans : Answers ss hy b.mld.groups b.mld.walltime b.start b.res
  win : Window ss b.left b.right b.start b.finish

/-- The timeline after some searches: same content. -/
structure Same (ctx ctx' : Ctx) (ss ss' : SlotSet) : Prop where
  env : ctx'.env = ctx.env
  wf : WF ss'
  pay : SamePay ss ss'
  bounds : ss'.begin_ = ss.begin_ ∧ ss'.end_ = ss.end_
  begins : KeepsBegins ss ss'

theorem Same.refl {ctx : Ctx} {ss : SlotSet} (h : WF ss) : Same ctx ctx ss ss :=
  ⟨rfl, h, fun _ => rfl, ⟨rfl, rfl⟩, KeepsBegins.refl ss⟩

theorem Same.trans {c1 c2 c3 : Ctx} {s1 s2 s3 : SlotSet} (h1 : Same c1 c2 s1 s2) (h2 : Same c2 c3 s2 s3) :
    Same c1 c3 s1 s3 :=
  ⟨h2.env.trans h1.env, h2.wf, h1.pay.trans h2.pay, ⟨h2.bounds.1.trans h1.bounds.1, h2.bounds.2.trans h1.bounds.2⟩,
    h1.begins.trans h2.begins⟩

theorem Same.free {c1 c2 : Ctx} {s1 s2 : SlotSet} (hw : WF s1) (h : Same c1 c2 s1 s2) (t : Int) (x : Nat) :
    Free s2 t x ↔ Free s1 t x := h.pay.free hw h.wf t x

theorem Same.freeDuring {c1 c2 : Ctx} {s1 s2 : SlotSet} (hw : WF s1) (h : Same c1 c2 s1 s2) (t w : Int) (x : Nat) :
    FreeDuring s2 t w x ↔ FreeDuring s1 t w x := by simp only [FreeDuring, h.free hw]

theorem Same.feasible {c1 c2 : Ctx} {s1 s2 : SlotSet} (hw : WF s1) (h : Same c1 c2 s1 s2) {hy : Hy} {g : List Group}
    {w t : Int} : Feasible s2 hy g w t ↔ Feasible s1 hy g w t := by simp only [Feasible, h.freeDuring hw]

theorem Same.answers {c1 c2 : Ctx} {s1 s2 : SlotSet} (hw : WF s1) (h : Same c1 c2 s1 s2) {hy : Hy} {g : List Group}
    {w t : Int} {R : ProcSet} : Answers s2 hy g w t R ↔ Answers s1 hy g w t R := by
  constructor
  · rintro ⟨a1, a2, a3, a4, a5⟩
    refine ⟨?_, a2, h.bounds.1 ▸ a3, h.bounds.2 ▸ a4, ?_⟩
    · simpa only [h.freeDuring hw] using a1
    · simpa only [h.freeDuring hw] using a5
  · rintro ⟨a1, a2, a3, a4, a5⟩
    refine ⟨?_, a2, h.bounds.1.symm ▸ a3, h.bounds.2.symm ▸ a4, ?_⟩
    · simpa only [h.freeDuring hw] using a1
    · simpa only [h.freeDuring hw] using a5

theorem Searched.same {ctx ctx' : Ctx} {ss ss' : SlotSet} {job : Job} {m : Mld} {hy : Hy} {minStart : Int}
    {res : Option (ProcSet × Nat × Nat)} (h : Searched ctx ctx' ss ss' job m hy minStart res) :
    Same ctx ctx' ss ss' := ⟨h.env, h.wf, h.pay, h.bounds, h.begins⟩

/-- How many alternatives were not found. -/
def Counted (best best' : Option Best) (n n' len : Nat) : Prop :=
  n' ≤ n + len ∧ (best = none → best' = none → n' = n + len) ∧ (best = none → best' ≠ none → n' < n + len) ∧
    (best ≠ none → best' ≠ none)

/-- There is no calendar, or a single alternative: later searches do not cut the slots of the current choice. -/
def Stable (ctx : Ctx) (ms : List Mld) (best : Option Best) : Prop :=
  ctx.cal = none ∨ (ms.length ≤ 1 ∧ best = none)

theorem BestOk.sameSlots {ss ss' : SlotSet} {hy : Hy} {mlds : List Mld} {b : Best} (h : SameSlots ss ss')
    (hb : BestOk ss hy mlds b) : BestOk ss' hy mlds b :=
  ⟨hb.mem, hb.pos, hb.fin, (sameSlots_answers h).2 hb.ans, h.window hb.win⟩

theorem assignLoop_spec {job : Job} {hy : Hy} {minStart : Int} (hp : Plain job) (mlds : List Mld) :
    ∀ (ms : List Mld) (ctx ctx' : Ctx) (ss ss' : SlotSet) (best best' : Option Best) (n n' : Nat),
    (∀ m ∈ ms, m ∈ mlds) → WF ss → CacheIds ss → ss.end_ < largeEnough → Stable ctx ms best →
    (∀ b, best = some b → BestOk ss hy mlds b) →
    assignLoop job hy minStart ms ctx ss best n = some (ctx', ss', best', n') →
    Same ctx ctx' ss ss' ∧ CacheIds ss' ∧ (∀ b, best' = some b → BestOk ss' hy mlds b) ∧
      Counted best best' n n' ms.length
  | [], ctx, ctx', ss, ss', best, best', n, n', _, hwf, hci, _, _, hb, h => by
    simp only [assignLoop, Option.some.injEq, Prod.mk.injEq] at h
    obtain ⟨rfl, rfl, rfl, rfl⟩ := h
    exact ⟨Same.refl hwf, hci, hb, by simp [Counted]⟩
  | m :: ms, ctx, ctx', ss, ss', best, best', n, n', hmem, hwf, hci, hend, hst, hb, h => by
    unfold assignLoop at h
    cases hf : findFirst ctx ss job m hy minStart with
    | none => rw [hf] at h; simp at h
    | some y =>
      obtain ⟨ctx1, ss1, res⟩ := y
      obtain ⟨hs, hci1⟩ := findFirst_spec hwf hci hp hf
      have hend1 : ss1.end_ < largeEnough := by rw [hs.bounds.2]; exact hend
      have hst1 : ∀ best1, (ms = [] ∨ ctx.cal = none ) → Stable ctx1 ms best1 ∨ ms = [] := by
        intro best1 hh
        rcases hh with h1 | h1
        · exact Or.inr h1
        · obtain ⟨rfl, _⟩ := findFirst_noCal hwf hci hp h1 hf
          exact Or.inl (Or.inl h1)
      have hms : ms = [] ∨ ctx.cal = none := by
        rcases hst with h1 | ⟨h1, _⟩
        · exact Or.inr h1
        · left; simpa using h1
      have hb1 : ∀ b, best = some b → BestOk ss1 hy mlds b := by
        intro b hbb
        rcases hst with h1 | ⟨_, h1⟩
        · exact (hb b hbb).sameSlots (findFirst_noCal hwf hci hp h1 hf).2
        · rw [h1] at hbb; simp at hbb
      have hrec : ∀ best1 n1, (∀ b, best1 = some b → BestOk ss1 hy mlds b) →
          assignLoop job hy minStart ms ctx1 ss1 best1 n1 = some (ctx', ss', best', n') →
          Same ctx ctx' ss ss' ∧ CacheIds ss' ∧ (∀ b, best' = some b → BestOk ss' hy mlds b) ∧
          Counted best1 best' n1 n' ms.length := by
        intro best1 n1 hbb hl
        rcases hst1 best1 hms with hstab | hnil
        · obtain ⟨g1, g2⟩ := assignLoop_spec hp mlds ms _ _ _ _ _ _ _ _
            (fun x hx => hmem x (List.mem_cons_of_mem _ hx)) hs.wf hci1 hend1 hstab hbb hl
          exact ⟨hs.same.trans g1, g2⟩
        · subst hnil
          simp only [assignLoop, Option.some.injEq, Prod.mk.injEq] at hl
          obtain ⟨rfl, rfl, rfl, rfl⟩ := hl
          exact ⟨hs.same, hci1, hbb, by simp [Counted]⟩
      rw [hf] at h
      cases res with
      | none =>
        dsimp only at h
        obtain ⟨g1, g2, g3, g4⟩ := hrec best (n + 1) hb1 h
        refine ⟨g1, g2, g3, ?_⟩
        obtain ⟨k1, k2, k3, k4⟩ := g4
        simp only [Counted, List.length_cons]
        exact ⟨by omega, fun a b => by have := k2 a b; omega, fun a b => by have := k3 a b; omega, k4⟩
      | some r =>
        obtain ⟨R, a, z⟩ := r
        dsimp only at h
        obtain ⟨s, hs1, hid, hans, _⟩ := hs.found hp R a z rfl
        obtain ⟨c1, hc1⟩ := hs.wf
        have hg : ss1.get? a = some s := by rw [← hid]; exact hc1.get (hc1.mem_iff.1 hs1)
        rw [hg] at h
        dsimp only at h
        have hw := hs.width
        have hhi := hans.hi
        obtain ⟨l', r', he, hwin⟩ := encompassing_window (finish := s.b + m.walltime - 1) ⟨c1, hc1⟩ hs1 (by omega) hhi
        by_cases hlt : s.b + m.walltime - 1 < bestFinish best
        · rw [if_pos hlt, he] at h
          dsimp only at h
          obtain ⟨g1, g2, g3, g4⟩ := hrec _ n (by
            intro b hbb
            simp only [Option.some.injEq] at hbb
            subst hbb
            exact ⟨hmem m (by simp), hw, rfl, hans, hwin⟩) h
          refine ⟨g1, g2, g3, ?_⟩
          obtain ⟨k1, k2, k3, k4⟩ := g4
          have k5 := k4 (by simp)
          simp only [Counted, List.length_cons]
          exact ⟨by omega, fun _ b => absurd b k5, fun _ _ => by omega, fun _ => k5⟩
        · rw [if_neg hlt] at h
          obtain ⟨g1, g2, g3, g4⟩ := hrec best n hb1 h
          refine ⟨g1, g2, g3, ?_⟩
          obtain ⟨k1, k2, k3, k4⟩ := g4
          have hne : best ≠ none := by
            rintro rfl
            apply hlt
            show _ < largeEnough
            omega
          have k5 := k4 hne
          simp only [Counted, List.length_cons]
          exact ⟨by omega, fun a _ => absurd a hne, fun a _ => absurd a hne, fun _ => k5⟩

/-- The outcome of the assignment of one job. -/
inductive Assigned (ctx : Ctx) (ss ss' : SlotSet) (hy : Hy) (job job' : Job) : Prop
  | no (hj : job' = { job with resSet := some ∅, startTime := -1, moldableId := -1 })
      (hfree : ∀ t x, Free ss' t x ↔ Free ss t x)
  | yes (m : Mld) (R : ProcSet) (t0 : Int) (extra : Bool) (hm : m ∈ job.mlds) (hw : 0 < m.walltime)
      (hj : job' = { job with moldableId := m.id, resSet := some R, startTime := t0, walltime := some m.walltime })
      (hans : Answers ss hy m.groups m.walltime t0 R)
      (hfree : ∀ t x, Free ss' t x ↔ Free ss t x ∧
        ¬ (x ∈ R ∧ t0 ≤ t ∧ (t < t0 + m.walltime ∨ (extra = true ∧ t = t0 + m.walltime))))

theorem assign_spec {ctx ctx' : Ctx} {ss ss' : SlotSet} {job job' : Job} {hy : Hy} {minStart : Int} (hp : Plain job)
    (hwf : WF ss) (hci : CacheIds ss) (hend : ss.end_ < largeEnough) (hst : Stable ctx job.mlds none)
    (h : assign ctx ss job hy minStart = some (ctx', ss', job')) :
    ctx'.env = ctx.env ∧ WF ss' ∧ CacheIds ss' ∧ ss'.begin_ = ss.begin_ ∧ ss'.end_ = ss.end_ ∧ KeepsBegins ss ss' ∧
      Assigned ctx ss ss' hy job job' := by
  unfold assign at h
  split at h
  · simp at h
  · split at h
    · simp at h
    · rename_i ctx1 ss1 best n hl
      obtain ⟨g1, g2, g3, g4⟩ := assignLoop_spec hp job.mlds job.mlds _ _ _ _ _ _ _ _ (fun _ hm => hm) hwf hci hend hst
        (by simp) hl
      split at h
      · simp only [Option.some.injEq, Prod.mk.injEq] at h
        obtain ⟨rfl, rfl, rfl⟩ := h
        exact ⟨g1.env, g1.wf, g2, g1.bounds.1, g1.bounds.2, g1.begins, .no rfl (fun t x => g1.free hwf t x)⟩
      · split at h
        · simp at h
        · rename_i b
          dsimp only at h
          split at h
          · simp at h
          · rename_i ss2 hsp
            simp only [Option.some.injEq, Prod.mk.injEq] at h
            obtain ⟨rfl, rfl, rfl⟩ := h
            have hb := g3 b rfl
            have hpos := hb.pos
            have hwin := hb.win
            rw [hb.fin] at hwin
            obtain ⟨ss3, k1, k2, k3, k4, k5, extra, k6, k7⟩ := split_window (ctx := ctx1) (R := b.res) (sub := true)
              (job := { job with moldableId := b.mld.id, resSet := some b.res, startTime := b.start,
                                 walltime := some b.mld.walltime }) (by omega) hwin
            rw [k1, Option.some.injEq] at hsp
            subst hsp
            refine ⟨g1.env, k2, ?_, k3.1.trans g1.bounds.1, k3.2.1.trans g1.bounds.2, g1.begins.trans k5,
              .yes b.mld b.res b.start extra hb.mem hb.pos rfl ((g1.answers hwf).1 hb.ans) ?_⟩
            · intro k i hk
              rw [k3.2.2] at hk
              obtain ⟨s, hs, rfl⟩ := g2 k i hk
              obtain ⟨s', hs', e, _⟩ := k5 s hs
              exact ⟨s', hs', e⟩
            · intro t x
              rw [free_map_sub g1.wf k2 (k7 t) x, g1.free hwf]

end Oar.Kao
