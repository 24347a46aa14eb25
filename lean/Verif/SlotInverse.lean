import Verif.SlotProps

/-!
# C47 : inserting a job and releasing it restores the timeline
-/

namespace Oar.Kao
open Spec

/-- Insertion or addition of a job whose window begins in the timeline: the last modified second `hi` is determined by
the slot `z` that contains the last second of the window, and the resulting timeline has a slot that ends at `hi` and
contains the last second of the window. -/
theorem insert_window (ctx : Ctx) (ss : SlotSet) (job : Job) (w : Int) (R : ProcSet) (sub : Bool)
    (hwf : WF ss) (hw : 1 ≤ w) (hjw : job.walltime = some w) (hjr : job.resSet = some R)
    (h1 : ss.begin_ ≤ job.startTime) (h2 : job.startTime ≤ ss.end_) :
    ∃ ss' z z', ss.splitJobs ctx [job] sub = some ss' ∧ WF ss' ∧ SameMeta ss ss' ∧ z ∈ ss.slots ∧
      z.b ≤ min (job.startTime + w - 1) ss.end_ ∧ min (job.startTime + w - 1) ss.end_ ≤ z.e ∧
      (∀ u, ss'.pay u = (ss.pay u).map (fun p =>
          if job.startTime ≤ u ∧ u ≤ rightEnd z.b z.e (job.startTime + w) then effect ctx job w R sub p else p)) ∧
      z' ∈ ss'.slots ∧ z'.b ≤ min (job.startTime + w - 1) ss.end_ ∧
      z'.e = rightEnd z.b z.e (job.startTime + w) := by
  obtain ⟨c, hc⟩ := hwf
  obtain ⟨f, R0, ec⟩ : ∃ f r, c = f :: r := by
    cases c with
    | nil => exact absurd rfl hc.ne
    | cons f r => exact ⟨f, r, rfl⟩
  have hfb : f.b = ss.begin_ := by have := hc.tiled; rw [ec] at this; exact this.1
  obtain ⟨l, t, i, r, a, z, e1, e2, e3, e4, e5, e6, e7, e8⟩ :=
    encompassing_spec (fid := f.id) (tb := job.startTime) (te := job.startTime + w - 1) hc
      (A0 := []) (R0 := R0) (f := f) (by simpa using ec) (Or.inl rfl) (by omega) h2
  have hbd := (tiled_bounds _ _ _ hc.tiled).2
  have haf : a.b ≤ job.startTime := e5 (by omega)
  have hzm : z ∈ c := by rw [e1, e2]; simp
  have hzb := hbd z hzm
  have hzr : z.b ≤ job.startTime + w - 1 := by
    rcases e7 with h7 | ⟨rfl, h7⟩ <;> omega
  obtain ⟨ss', g1, g2, g3, g4, _, g6, g7, z', g8, g9, g10⟩ := splitSlots_core2 (ctx := ctx) (job := job) (w := w)
    (R := R) (sub := sub) (keeps_effect ctx job w R sub) (pay_effect ctx job w R sub) (rules_effect ctx job w R sub)
    (e1 ▸ hc) e2 hw (fun _ => e4) (fun _ => by omega)
  have hrun : ss.splitJobs ctx [job] sub = some ss' := by
    have hfst : ss.first? = some f := by
      have h' : Partition ss (f :: R0) := by rw [ec] at hc; exact hc
      exact h'.first
    simp only [SlotSet.splitJobs, hfst, SlotSet.splitJobsLoop]
    have : ss.splitJobStep ctx sub f.id job = some (ss', a.id) := by
      unfold SlotSet.splitJobStep
      simp only [hjw, hjr]
      rw [if_pos (by omega)]
      simp only [e3, g1]
    rw [this]
  refine ⟨ss', z, z', hrun, g2, g3, hc.mem_iff.2 hzm, by omega, ?_, ?_, g8, ?_, g9⟩
  · rcases e8 with h8 | h8
    · omega
    · subst h8
      have hze := last_slot (l := l) (i := i) hc (by rw [e1, e2, List.append_nil])
      omega
  · intro u
    rw [g7, max_eq_right haf]
  · rcases g10 with h | h <;> omega

/-- **C47.** In any timeline, inserting a plain job whose resources are free during its window and then adding it back
over the same window restores the free resources at every date. -/
theorem sub_add_restores (ctx : Ctx) (ss : SlotSet) (job : Job) (w : Int) (R : ProcSet) (hwf : WF ss)
    (hw : 1 ≤ w) (hjw : job.walltime = some w) (hjr : job.resSet = some R) (hts : job.ts = false)
    (hph : job.ph = 0) (h1 : ss.begin_ ≤ job.startTime) (h2 : job.startTime + w - 1 ≤ ss.end_)
    (hfree : ∀ x ∈ R, FreeDuring ss job.startTime w x) :
    ∃ s1 s2, ss.splitJobs ctx [job] true = some s1 ∧ s1.splitJobs ctx [job] false = some s2 ∧ WF s2 ∧
      ∀ t x, Free s2 t x ↔ Free ss t x := by
  obtain ⟨s1, z, z', e1, w1, m1, a1, a2, a3, a4, a5, a6, a7⟩ :=
    insert_window ctx ss job w R true hwf hw hjw hjr h1 (by omega)
  obtain ⟨s2, y, y', b1, w2, m2, c1, c2, c3, c4, c5, c6, c7⟩ :=
    insert_window ctx s1 job w R false w1 hw hjw hjr (by rw [m1.1]; exact h1) (by rw [m1.2.1]; omega)
  refine ⟨s1, s2, e1, b1, w2, ?_⟩
  rw [m1.2.1] at c2 c3
  have hmin : min (job.startTime + w - 1) ss.end_ = job.startTime + w - 1 := by omega
  rw [hmin] at a2 a3 a6 c2 c3
  have hz'e : job.startTime + w - 1 ≤ z'.e := by
    rw [a7]; unfold rightEnd; split
    · split <;> omega
    · omega
  have hyz : y = z' := by
    obtain ⟨c, hc⟩ := w1
    exact tiled_unique c _ _ (job.startTime + w - 1) hc.tiled y z' (hc.mem_iff.1 c1) (hc.mem_iff.1 a5) c2 c3 a6 hz'e
  subst hyz
  have hhi : rightEnd y.b y.e (job.startTime + w) = rightEnd z.b z.e (job.startTime + w) := by
    rw [a7]; unfold rightEnd
    by_cases hgt : z.e > job.startTime + w
    · rw [if_pos hgt]
      rw [if_neg (show ¬ z.b = job.startTime + w by omega)]
      rw [if_neg (by omega)]
    · rw [if_neg hgt, if_neg hgt]
  rw [hhi] at c4
  -- the resources are free at the last modified second too
  have hfree' : ∀ x ∈ R, ∀ u, job.startTime ≤ u → u ≤ rightEnd z.b z.e (job.startTime + w) → Free ss u x := by
    intro x hx u hu1 hu2
    by_cases hlt : u < job.startTime + w
    · exact hfree x hx u hu1 hlt
    · have hze : u ≤ z.e := by
        have : rightEnd z.b z.e (job.startTime + w) ≤ z.e := by
          unfold rightEnd; split
          · split <;> omega
          · exact le_rfl
        omega
      obtain ⟨s, hs, k1, k2, k3⟩ := hfree x hx (job.startTime + w - 1) (by omega) (by omega)
      have : s = z := by
        obtain ⟨c, hc⟩ := hwf
        exact tiled_unique c _ _ (job.startTime + w - 1) hc.tiled s z (hc.mem_iff.1 hs) (hc.mem_iff.1 a1) k1 k2 a2 a3
      subst this
      exact ⟨s, hs, by omega, hze, k3⟩
  intro t x
  rw [free_map_add w1 w2 hts hph (c4 t) x, free_map_sub hwf w1 (a4 t) x, m1.1, m1.2.1]
  constructor
  · rintro (h | ⟨hx, ⟨h3, h4⟩, _⟩)
    · exact h.1
    · exact hfree' x hx t h3 h4
  · intro h
    by_cases hP : x ∈ R ∧ job.startTime ≤ t ∧ t ≤ rightEnd z.b z.e (job.startTime + w)
    · right
      refine ⟨hP.1, hP.2, ?_⟩
      obtain ⟨s, hs, k1, k2, _⟩ := h
      obtain ⟨c, hc⟩ := hwf
      have := (tiled_bounds _ _ _ hc.tiled).2 s (hc.mem_iff.1 hs)
      omega
    · exact Or.inl ⟨h, hP⟩

-- the hypotheses on a timeline with a boundary exactly at the end of the job
example : ∃ ss, ss0.splitJobs ctx0 [jobB0] true = some ss ∧ WF ss ∧ (∃ s ∈ ss.slots, s.e = jobA.startTime + 10) ∧
    ∀ x ∈ ({1, 2} : ProcSet), FreeDuring ss jobA.startTime 10 x := by
  have hok : (ss0.splitJobs ctx0 [jobB0] true).isSome = true := by decide
  obtain ⟨ss, hss⟩ := Option.isSome_iff_exists.1 hok
  refine ⟨ss, hss, ?_, ?_, ?_⟩
  · obtain ⟨ss', e1, e2, _⟩ := insert_covers ctx0 ss0 jobB0 10 {3} ((fresh_wf ctx0 _ 0 0).1 (by decide)) (by decide) rfl
      rfl (by decide) (by decide)
    rw [hss] at e1; cases e1; exact e2
  · have : (ss0.splitJobs ctx0 [jobB0] true).map (fun s => s.slots.any (fun s => decide (s.e = jobA.startTime + 10))) =
      some true := by decide
    rw [hss] at this
    simpa using this
  · have : (ss0.splitJobs ctx0 [jobB0] true).map (fun s => s.slots.any (fun s => decide (s.b = 0 ∧ s.e = 20 ∧
      s.itvs = {1, 2, 3, 4}))) = some true := by decide
    rw [hss] at this
    simp only [Option.map_some, Option.some.injEq, List.any_eq_true, decide_eq_true_eq] at this
    obtain ⟨s, hs, k1, k2, k3⟩ := this
    intro x hx u hu1 hu2
    refine ⟨s, hs, ?_, ?_, ?_⟩
    · have : jobA.startTime = 10 := rfl
      omega
    · have : jobA.startTime = 10 := rfl
      omega
    · rw [k3]; revert hx; revert x; decide

end Oar.Kao
