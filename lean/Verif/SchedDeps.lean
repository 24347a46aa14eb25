import Verif.SchedPass

/-!
# Dependencies: lemmas
-/

namespace Oar.Kao
open Spec Oar.Hierarchy

theorem startsAt_low {ss : SlotSet} {c : List Slot} (h : Partition ss c) {job : Job} {m : Mld} {minStart : Int} {s : Slot}
    (h0 : 0 ≤ minStart) (hb : ∃ x ∈ ss.slots, x.b = minStart) (hs : s ∈ ss.slots)
    (hst : StartsAt ss job m minStart s) : minStart ≤ s.b := by
  obtain ⟨x, hx, hxb⟩ := hb
  have hbd := (tiled_bounds _ _ _ h.tiled).2 x (h.mem_iff.1 hx)
  cases hst with
  | first h1 hm => omega
  | cached k h1 h2 h3 => omega
  | at_ _ h1 h2 =>
    have : x = s := tiled_unique c _ _ minStart h.tiled x s (h.mem_iff.1 hx) (h.mem_iff.1 hs) (by omega) (by omega) h1 h2
    rw [← this, hxb]

theorem assignLoop_low {job : Job} {hy : Hy} {minStart : Int} (hp : Plain job) (h0 : 0 ≤ minStart) :
    ∀ (ms : List Mld) (ctx ctx' : Ctx) (ss ss' : SlotSet) (best best' : Option Best) (n n' : Nat),
    WF ss → CacheIds ss → (∃ x ∈ ss.slots, x.b = minStart) → (∀ b, best = some b → minStart ≤ b.start) →
    assignLoop job hy minStart ms ctx ss best n = some (ctx', ss', best', n') →
    ∀ b, best' = some b → minStart ≤ b.start
  | [], ctx, ctx', ss, ss', best, best', n, n', _, _, _, hb, h => by
    simp only [assignLoop, Option.some.injEq, Prod.mk.injEq] at h
    obtain ⟨_, _, rfl, _⟩ := h
    exact hb
  | m :: ms, ctx, ctx', ss, ss', best, best', n, n', hwf, hci, hx, hb, h => by
    unfold assignLoop at h
    cases hf : findFirst ctx ss job m hy minStart with
    | none => rw [hf] at h; simp at h
    | some y =>
      obtain ⟨ctx1, ss1, res⟩ := y
      obtain ⟨hs, hci1⟩ := findFirst_spec hwf hci hp hf
      have hx1 : ∃ x ∈ ss1.slots, x.b = minStart := by
        obtain ⟨x, hx, e⟩ := hx
        obtain ⟨x', hx', _, e'⟩ := hs.begins x hx
        exact ⟨x', hx', e'.trans e⟩
      have ih := fun best1 n1 hb1 (hl : assignLoop job hy minStart ms ctx1 ss1 best1 n1 = some (ctx', ss', best', n')) =>
        assignLoop_low hp h0 ms _ _ ss1 ss' best1 best' n1 n' hs.wf hci1 hx1 hb1 hl
      rw [hf] at h
      cases res with
      | none => exact ih _ _ hb h
      | some r =>
        obtain ⟨R, a, z⟩ := r
        dsimp only at h
        split at h
        · simp at h
        · rename_i sl hsl
          obtain ⟨s, hs1, hid, hans, s0, hs0, hst, hle⟩ := hs.found hp R a z rfl
          have hlow : minStart ≤ sl.b := by
            obtain ⟨c1, hc1⟩ := hs.wf
            have hg : ss1.get? a = some s := by rw [← hid]; exact hc1.get (hc1.mem_iff.1 hs1)
            rw [hg, Option.some.injEq] at hsl
            subst hsl
            obtain ⟨c, hc⟩ := hwf
            have := startsAt_low hc h0 hx hs0 hst
            omega
          split at h
          · split at h
            · simp at h
            · exact ih _ _ (by
                intro b hbb
                rw [Option.some.injEq] at hbb
                subst hbb
                exact hlow) h
          · exact ih _ _ hb h

/-- If a slot begins at the minimal date, the job starts at this date or later. -/
theorem assign_low {ctx ctx' : Ctx} {ss ss' : SlotSet} {job job' : Job} {hy : Hy} {minStart : Int} (hp : Plain job)
    (h0 : 0 ≤ minStart) (hwf : WF ss) (hci : CacheIds ss) (hx : ∃ x ∈ ss.slots, x.b = minStart)
    (h : assign ctx ss job hy minStart = some (ctx', ss', job')) :
    job' = { job with resSet := some ∅, startTime := -1, moldableId := -1 } ∨ minStart ≤ job'.startTime := by
  unfold assign at h
  split at h
  · simp at h
  · split at h
    · simp at h
    · rename_i ctx1 ss1 best n hl
      have hlow := assignLoop_low hp h0 job.mlds _ _ _ _ _ _ _ _ hwf hci hx (by simp) hl
      split at h
      · simp only [Option.some.injEq, Prod.mk.injEq] at h
        exact Or.inl h.2.2.symm
      · split at h
        · simp at h
        · rename_i b
          dsimp only at h
          split at h
          · simp at h
          · simp only [Option.some.injEq, Prod.mk.injEq] at h
            obtain ⟨_, _, rfl⟩ := h
            exact Or.inr (hlow b rfl)

/-- The minimal date is at least the end of every waiting dependency, and every dependency is in a state allowing the
job to be scheduled. -/
theorem depsLoop_spec {st : Sched} : ∀ (ds : List Dep) (m m' : Int), depsLoop st ds m = some m' → m ≤ m' ∧
    (∀ d ∈ ds, d.state = "Error" ∨
      (d.state = "Waiting" ∧ ∃ jd, st.job? d.jid = some jd ∧ jd.startTime + jd.walltime.getD 0 ≤ m') ∨
      (d.state = "Terminated" ∧ (d.exitCode = some 0 ∨ d.exitCode = none))) ∧
    (m' = m ∨ ∃ d ∈ ds, d.state = "Waiting" ∧ ∃ jd, st.job? d.jid = some jd ∧ m' = jd.startTime + jd.walltime.getD 0)
  | [], m, m', h => by
    simp only [depsLoop, Option.some.injEq] at h
    subst h
    simp
  | d :: ds, m, m', h => by
    have hrec : ∀ m1, depsLoop st ds m1 = some m' → m ≤ m1 →
        (d.state = "Error" ∨
          (d.state = "Waiting" ∧ ∃ jd, st.job? d.jid = some jd ∧ jd.startTime + jd.walltime.getD 0 ≤ m1) ∨
          (d.state = "Terminated" ∧ (d.exitCode = some 0 ∨ d.exitCode = none))) →
        (m1 = m ∨ (d.state = "Waiting" ∧ ∃ jd, st.job? d.jid = some jd ∧ m1 = jd.startTime + jd.walltime.getD 0)) →
        m ≤ m' ∧ (∀ x ∈ d :: ds, x.state = "Error" ∨
          (x.state = "Waiting" ∧ ∃ jd, st.job? x.jid = some jd ∧ jd.startTime + jd.walltime.getD 0 ≤ m') ∨
          (x.state = "Terminated" ∧ (x.exitCode = some 0 ∨ x.exitCode = none))) ∧
        (m' = m ∨ ∃ x ∈ d :: ds, x.state = "Waiting" ∧ ∃ jd, st.job? x.jid = some jd ∧
          m' = jd.startTime + jd.walltime.getD 0) := by
      intro m1 hl hm hd ho
      obtain ⟨h1, h2, h3⟩ := depsLoop_spec ds m1 m' hl
      refine ⟨by omega, ?_, ?_⟩
      · intro x hx
        rcases List.mem_cons.1 hx with rfl | hx
        · rcases hd with hd | ⟨hd, jd, e, hle⟩ | hd
          · exact Or.inl hd
          · exact Or.inr (Or.inl ⟨hd, jd, e, by omega⟩)
          · exact Or.inr (Or.inr hd)
        · exact h2 x hx
      · rcases h3 with h3 | ⟨x, hx, h3⟩
        · rcases ho with ho | ⟨ho, jd, e, hle⟩
          · left; omega
          · right; exact ⟨d, by simp, ho, jd, e, by omega⟩
        · right; exact ⟨x, List.mem_cons_of_mem _ hx, h3⟩
    unfold depsLoop at h
    split at h
    · rename_i hs
      exact hrec m h (le_refl _) (Or.inl hs) (Or.inl rfl)
    · split at h
      · rename_i hs
        split at h
        · simp at h
        · rename_i jd hjd
          have hstop : jd.stop = jd.startTime + jd.walltime.getD 0 := by
            unfold Job.stop
            cases jd.walltime <;> simp
          rw [hstop] at h
          by_cases hgt : jd.startTime + jd.walltime.getD 0 > m
          · rw [if_pos hgt] at h
            exact hrec _ h (by omega) (Or.inr (Or.inl ⟨hs, jd, hjd, le_refl _⟩)) (Or.inr ⟨hs, jd, hjd, rfl⟩)
          · rw [if_neg hgt] at h
            exact hrec _ h (by omega) (Or.inr (Or.inl ⟨hs, jd, hjd, by omega⟩)) (Or.inl rfl)
      · split at h
        · rename_i hs
          exact hrec m h (le_refl _) (Or.inr (Or.inr hs)) (Or.inl rfl)
        · simp at h

/-- A dependency that must not be satisfied prevents the scheduling. -/
theorem depsLoop_none {st : Sched} : ∀ (ds : List Dep) (m : Int), depsLoop st ds m = none ↔
    ∃ d ∈ ds, d.state ≠ "Error" ∧ ¬ (d.state = "Waiting" ∧ (st.job? d.jid).isSome) ∧
      ¬ (d.state = "Terminated" ∧ (d.exitCode = some 0 ∨ d.exitCode = none))
  | [], m => by simp [depsLoop]
  | d :: ds, m => by
    unfold depsLoop
    split
    · rename_i hs
      rw [depsLoop_none ds m]
      constructor
      · rintro ⟨x, hx, h⟩; exact ⟨x, List.mem_cons_of_mem _ hx, h⟩
      · rintro ⟨x, hx, h⟩
        rcases List.mem_cons.1 hx with rfl | hx
        · exact absurd hs h.1
        · exact ⟨x, hx, h⟩
    · rename_i he
      split
      · rename_i hs
        split
        · rename_i hn
          constructor
          · intro _
            refine ⟨d, by simp, he, by rw [hn]; simp, ?_⟩
            rintro ⟨h1, _⟩
            rw [hs] at h1
            exact absurd h1 (by decide)
          · intro _; rfl
        · rename_i jd hjd
          rw [depsLoop_none ds _]
          constructor
          · rintro ⟨x, hx, h⟩; exact ⟨x, List.mem_cons_of_mem _ hx, h⟩
          · rintro ⟨x, hx, h⟩
            rcases List.mem_cons.1 hx with rfl | hx
            · exact absurd ⟨hs, by rw [hjd]; rfl⟩ h.2.1
            · exact ⟨x, hx, h⟩
      · rename_i hw
        split
        · rename_i hs
          rw [depsLoop_none ds m]
          constructor
          · rintro ⟨x, hx, h⟩; exact ⟨x, List.mem_cons_of_mem _ hx, h⟩
          · rintro ⟨x, hx, h⟩
            rcases List.mem_cons.1 hx with rfl | hx
            · exact absurd hs h.2.2
            · exact ⟨x, hx, h⟩
        · rename_i hs
          constructor
          · intro _; exact ⟨d, by simp, he, fun h => hw h.1, hs⟩
          · intro _; rfl

theorem keepsBegins_fold {f : Slot → Slot} (hf : Keeps f) : ∀ (M : List Slot) (ss : SlotSet),
    KeepsBegins ss (M.foldl (fun s x => s.modify x.id f) ss)
  | [], ss => KeepsBegins.refl ss
  | y :: M, ss => by
    refine KeepsBegins.trans ?_ (keepsBegins_fold hf M (ss.modify y.id f))
    intro s hs
    refine ⟨if s.id = y.id then f s else s, List.mem_map_of_mem (f := fun s => if s.id = y.id then f s else s) hs, ?_⟩
    split
    · exact ⟨(hf s).1, (hf s).2.2.2.1⟩
    · exact ⟨rfl, rfl⟩

/-- After the assignment of a job that does not meet the boundary of C02, a slot begins at its end. -/
theorem split_boundary {ctx : Ctx} {ss ss' : SlotSet} {l r : Nat} {job : Job} {w : Int} {R : ProcSet} {sub : Bool}
    (hw : 1 ≤ w) (hwin : Window ss l r job.startTime (job.startTime + w - 1))
    (hb : ∀ s ∈ ss.slots, s.e ≠ job.startTime + w) (hend : job.startTime + w ≤ ss.end_)
    (h : ss.splitSlots ctx l r job w R sub = some ss') : ∃ s ∈ ss'.slots, s.b = job.startTime + w := by
  have hkb : KeepsBegins ss ss' := by
    obtain ⟨ss3, k1, _, _, _, k5, _⟩ := split_window (ctx := ctx) (R := R) (sub := sub) hw hwin
    rw [k1, Option.some.injEq] at h
    rw [← h]; exact k5
  obtain ⟨l0, t, i, r0, a, z, hp, e, rfl, rfl, hab, h1, h2⟩ := hwin
  have hzm : z ∈ ss.slots := hp.mem_iff.2 (by rw [e]; simp)
  have hne := hb z hzm
  have hpz : Partition ss ((l0 ++ i) ++ z :: r0) := by
    have : l0 ++ (a :: t) ++ r0 = (l0 ++ i) ++ z :: r0 := by rw [e]; simp
    rw [← this]; exact hp
  by_cases hz : z.e = job.startTime + w - 1
  · cases r0 with
    | nil =>
      have := last_slot (l := l0) (i := i) (z := z) hpz (by simp)
      omega
    | cons y r0 =>
      have hadj := tiled_adj hpz.tiled
      obtain ⟨y', hy', _, e2⟩ := hkb y (hpz.mem_iff.2 (by simp))
      exact ⟨y', hy', by omega⟩
  · have hgt : z.e > job.startTime + w := by omega
    obtain ⟨ss1, s1, n, r1, e1, hp1, _, _, hn, _⟩ :=
      splitAfter_part (ctx := ctx) (date := job.startTime + w) hpz (by omega) (by omega) (by omega)
    unfold SlotSet.splitSlots at h
    have hga : ss.get? a.id = some a := hp.get (by simp)
    rw [hga] at h
    dsimp only at h
    rw [if_neg (by omega)] at h
    dsimp only at h
    have hgz : ss.get? z.id = some z := hpz.get (by simp)
    rw [hgz] at h
    dsimp only at h
    rw [if_pos hgt, e1] at h
    simp only [Option.map_some, Option.some.injEq] at h
    have hnb : n.b = job.startTime + w := by
      have := congrArg Slot.b hn
      have h3 : n.b = if z.b = job.startTime + w then z.b + 1 else job.startTime + w := this
      rw [h3, if_neg (by omega)]
    obtain ⟨n', hn', _, e3⟩ := keepsBegins_fold (keeps_effect ctx job w R sub) (ss1.traverse a.id z.id) ss1 n
      (hp1.mem_iff.2 (by simp))
    refine ⟨n', ?_, e3.trans hnb⟩
    rw [← h]
    exact hn'

end Oar.Kao
