import Verif.Reservation
import Verif.SchedProps

/-!
# C14 : advance reservations
-/

namespace Oar.Kao
open Spec Oar.Hierarchy Oar.Quotas

/-! ## The range of slots of a reservation -/

theorem range_right {st en : Int} : ∀ (r : List Slot) (lo hi : Int) (f : Nat), Tiled lo r hi → st < lo → lo ≤ en → en ≤ hi →
    ∃ i z r', r = i ++ z :: r' ∧ encompassingLoop st en r f = (f, z.id) ∧ z.b ≤ en ∧ en ≤ z.e
  | [], lo, hi, f, h, _, _, _ => by simp only [Tiled] at h; omega
  | s :: r, lo, hi, f, h, h1, h2, h3 => by
    obtain ⟨g1, g2, g3⟩ := h
    unfold encompassingLoop
    dsimp only
    rw [if_neg (show ¬ (st ≥ s.b ∧ st ≤ s.e) by omega)]
    by_cases he : en ≤ s.e
    · rw [if_pos (by omega)]
      exact ⟨[], s, r, rfl, rfl, by omega, he⟩
    · rw [if_neg (by omega)]
      obtain ⟨i, z, r', e, e2, e3⟩ := range_right (st := st) (en := en) r (s.e + 1) hi f g3 (by omega) (by omega) h3
      exact ⟨s :: i, z, r', by rw [e]; rfl, e2, e3⟩

theorem range_in {st en : Int} : ∀ (c : List Slot) (lo hi : Int) (f : Nat), Tiled lo c hi → lo ≤ st → st ≤ en → en ≤ hi →
    ∃ l t i r a z, c = l ++ (a :: t) ++ r ∧ a :: t = i ++ [z] ∧ encompassingLoop st en c f = (a.id, z.id) ∧
      a.b ≤ st ∧ st ≤ a.e ∧ z.b ≤ en ∧ en ≤ z.e
  | [], lo, hi, f, h, _, _, _ => by simp only [Tiled] at h; omega
  | s :: c, lo, hi, f, h, h1, h2, h3 => by
    obtain ⟨g1, g2, g3⟩ := h
    unfold encompassingLoop
    dsimp only
    by_cases hs : st ≤ s.e
    · rw [if_pos (show st ≥ s.b ∧ st ≤ s.e by omega)]
      by_cases he : en ≤ s.e
      · rw [if_pos (by omega)]
        exact ⟨[], [], [], c, s, s, rfl, rfl, rfl, by omega, hs, by omega, he⟩
      · rw [if_neg (by omega)]
        obtain ⟨i, z, r', e, e2, e3⟩ := range_right (st := st) (en := en) c (s.e + 1) hi s.id g3 (by omega) (by omega) h3
        exact ⟨[], i ++ [z], s :: i, r', s, z, by rw [e]; simp, rfl, e2, by omega, hs, e3⟩
    · rw [if_neg (by omega), if_neg (by omega)]
      obtain ⟨l, t, i, r, a, z, e1, e2⟩ := range_in c _ _ f g3 (by omega) h2 h3
      exact ⟨s :: l, t, i, r, a, z, by rw [e1]; simp, e2⟩

theorem range_early {st en : Int} : ∀ (c : List Slot) (lo hi : Int) (f : Nat), Tiled lo c hi → st < lo →
    (encompassingLoop st en c f).1 = f
  | [], _, _, _, _, _ => rfl
  | s :: c, lo, hi, f, h, h1 => by
    obtain ⟨g1, g2, g3⟩ := h
    unfold encompassingLoop
    dsimp only
    rw [if_neg (show ¬ (st ≥ s.b ∧ st ≤ s.e) by omega)]
    split
    · rfl
    · exact range_early c _ _ f g3 (by omega)

theorem range_late {st en : Int} : ∀ (c : List Slot) (lo hi : Int) (f : Nat), Tiled lo c hi → hi < en →
    (encompassingLoop st en c f).2 = 0
  | [], _, _, _, _, _ => rfl
  | s :: c, lo, hi, f, h, h1 => by
    have hb := (tiled_bounds _ _ _ h).2 s (by simp)
    obtain ⟨g1, g2, g3⟩ := h
    unfold encompassingLoop
    dsimp only
    rw [if_neg (show ¬ (en ≥ s.b ∧ en ≤ s.e) by omega)]
    exact range_late c _ _ _ g3 h1

theorem get_zero {ss : SlotSet} {c : List Slot} (h : Partition ss c) : ss.get? 0 = none := by
  unfold SlotSet.get?
  rw [List.find?_eq_none]
  intro s hs
  have := (h.range s (h.mem_iff.1 hs)).1
  simp; omega

/-- Inserting an accepted reservation. -/
theorem range_split {ctx : Ctx} {ss ss' : SlotSet} {job : Job} {w : Int} {R : ProcSet} {l r : Nat} (hwf : WF ss)
    (hw : 0 < w) (h1 : ss.encompassingRange job.startTime (job.startTime + w) = some (l, r))
    (h2 : ss.splitSlots ctx l r job w R true = some ss') :
    ss.begin_ ≤ job.startTime ∧ job.startTime + w ≤ ss.end_ ∧ WF ss' ∧ SameMeta ss ss' ∧
    ∃ extra : Bool, ∀ t x, Free ss' t x ↔ Free ss t x ∧
      ¬ (x ∈ R ∧ (job.startTime ≤ t ∧ (t < job.startTime + w ∨ (extra = true ∧ t = job.startTime + w)))) := by
  obtain ⟨c, hc⟩ := hwf
  unfold SlotSet.encompassingRange at h1
  rw [if_pos (by omega), traverse_all hc, Option.some.injEq] at h1
  by_cases hlo : job.startTime < ss.begin_
  · have := range_early (st := job.startTime) (en := job.startTime + w) c _ _ 0 hc.tiled hlo
    rw [h1] at this
    simp only at this
    subst this
    unfold SlotSet.splitSlots at h2
    rw [get_zero hc] at h2
    simp at h2
  by_cases hhi : ss.end_ < job.startTime + w
  · exfalso
    have := range_late (st := job.startTime) (en := job.startTime + w) c _ _ 0 hc.tiled hhi
    rw [h1] at this
    simp only at this
    subst this
    by_cases hst : job.startTime ≤ ss.end_
    · -- the first slot exists, the last one is 0
      unfold SlotSet.splitSlots at h2
      cases hg : ss.get? l with
      | none => rw [hg] at h2; simp at h2
      | some sl =>
        rw [hg] at h2
        dsimp only at h2
        have hsl : sl ∈ c ∧ sl.id = l := by
          unfold SlotSet.get? at hg
          exact ⟨hc.mem_iff.1 (List.mem_of_find?_eq_some hg), by simpa using List.find?_some hg⟩
        obtain ⟨A, B, e⟩ := List.append_of_mem hsl.1
        have hp : Partition ss (A ++ sl :: B) := e ▸ hc
        by_cases hlt : sl.b < job.startTime
        · rw [if_pos hlt] at h2
          have hle : job.startTime ≤ sl.e ∨ sl.e < job.startTime := by omega
          rcases hle with hle | hle
          · obtain ⟨ss1, l1, a1, e1, p1, _⟩ := leftStep (ctx := ctx) (start := job.startTime) hp (fun _ => hle)
            rw [if_pos hlt, hsl.2] at e1
            rw [e1] at h2
            dsimp only at h2
            rw [get_zero p1] at h2
            simp at h2
          · -- impossible: the first slot returned contains the start
            obtain ⟨l2, s2, r2, e2, h3, h4⟩ := tiled_cover _ _ _ job.startTime hc.tiled (by omega) hst
            have hfst : ∀ (c : List Slot) (lo hi : Int) (f : Nat), Tiled lo c hi → lo ≤ job.startTime →
                job.startTime ≤ hi → hi < job.startTime + w →
                ∃ a ∈ c, a.b ≤ job.startTime ∧ job.startTime ≤ a.e ∧
                  (encompassingLoop job.startTime (job.startTime + w) c f).1 = a.id := by
              intro c
              induction c with
              | nil => intro lo hi f h _ _ _; simp only [Tiled] at h; omega
              | cons s c ih =>
                intro lo hi f h q1 q2 q3
                have hb := (tiled_bounds _ _ _ h).2 s (by simp)
                obtain ⟨g1, g2, g3⟩ := h
                unfold encompassingLoop
                dsimp only
                rw [if_neg (show ¬ (job.startTime + w ≥ s.b ∧ job.startTime + w ≤ s.e) by omega)]
                by_cases hs : job.startTime ≤ s.e
                · rw [if_pos (show job.startTime ≥ s.b ∧ job.startTime ≤ s.e by omega)]
                  exact ⟨s, by simp, by omega, hs, range_early c _ _ _ g3 (by omega)⟩
                · rw [if_neg (by omega)]
                  obtain ⟨a, ha, h⟩ := ih _ _ f g3 (by omega) q2 q3
                  exact ⟨a, by simp [ha], h⟩
            obtain ⟨a, ha, ha1, ha2, ha3⟩ := hfst c _ _ 0 hc.tiled (by omega) hst hhi
            rw [h1] at ha3
            simp only at ha3
            have hgl := hc.get ha
            rw [← ha3, hg, Option.some.injEq] at hgl
            subst hgl
            omega
        · rw [if_neg hlt] at h2
          dsimp only at h2
          rw [get_zero hc] at h2
          simp at h2
    · have hf : ∀ (c : List Slot) (lo hi : Int) (f : Nat), Tiled lo c hi → hi < job.startTime →
          (encompassingLoop job.startTime (job.startTime + w) c f).1 = f := by
        intro c
        induction c with
        | nil => intro lo hi f h _; rfl
        | cons s c ih =>
          intro lo hi f h q1
          have hb := (tiled_bounds _ _ _ h).2 s (by simp)
          obtain ⟨g1, g2, g3⟩ := h
          unfold encompassingLoop
          dsimp only
          rw [if_neg (show ¬ (job.startTime ≥ s.b ∧ job.startTime ≤ s.e) by omega),
            if_neg (show ¬ (job.startTime + w ≥ s.b ∧ job.startTime + w ≤ s.e) by omega)]
          exact ih _ _ f g3 q1
      have := hf c _ _ 0 hc.tiled (by omega)
      rw [h1] at this
      simp only at this
      subst this
      unfold SlotSet.splitSlots at h2
      rw [get_zero hc] at h2
      simp at h2
  · obtain ⟨l0, t, i, r0, a, z, e1, e2, e3, e4, e5, e6, e7⟩ :=
      range_in (st := job.startTime) (en := job.startTime + w) c _ _ 0 hc.tiled (by omega) (by omega) (by omega)
    rw [e3, Prod.mk.injEq] at h1
    obtain ⟨rfl, rfl⟩ := h1
    obtain ⟨ss2, g1, g2, g3, g4, g5, _, g7⟩ := splitSlots_core (ctx := ctx) (R := R) (sub := true)
      (keeps_effect ctx job w R true) (pay_effect ctx job w R true) (rules_effect ctx job w R true) (e1 ▸ hc) e2
      (by omega) (by omega) (by omega)
    rw [g1, Option.some.injEq] at h2
    subst h2
    refine ⟨by omega, by omega, g2, g3, decide (rightEnd z.b z.e (job.startTime + w) = job.startTime + w), fun t x => ?_⟩
    rw [free_map_sub ⟨c, hc⟩ g2 (g7 t) x]
    have hre : rightEnd z.b z.e (job.startTime + w) = job.startTime + w ∨
        rightEnd z.b z.e (job.startTime + w) = job.startTime + w - 1 := by
      unfold rightEnd; split <;> [split; skip] <;> omega
    simp only [decide_eq_true_eq]
    constructor
    · rintro ⟨h3, h4⟩
      exact ⟨h3, fun h5 => h4 ⟨h5.1, by omega, by rcases h5.2.2 with h6 | h6 <;> omega⟩⟩
    · rintro ⟨h3, h4⟩
      exact ⟨h3, fun h5 => h4 ⟨h5.1, by omega, by rcases hre with h6 | h6 <;> omega⟩⟩

/-- The slots checked for a reservation. -/
theorem ar_available {ss : SlotSet} {job : Job} {l r : Nat} {st en : Int} {av : ProcSet} (hwf : WF ss) (hp : Plain job)
    (hle : st ≤ en) (hb : ss.begin_ ≤ st) (he : en ≤ ss.end_) (h1 : ss.encompassingSlots st en 0 = some (l, r))
    (h2 : available ss job l r = some av) : ∀ x, x ∈ av ↔ FreeDuring ss st (en - st + 1) x := by
  obtain ⟨c, hc⟩ := hwf
  cases hcc : c with
  | nil => exact absurd hcc hc.ne
  | cons f R0 =>
    have hfb : f.b = ss.begin_ := by have := hc.tiled; rw [hcc] at this; exact this.1
    obtain ⟨l0, t, i, r0, a, z, e1, e2, e3, e4, e5, e6, e7, e8⟩ :=
      encompassing_spec (tb := st) (te := en) (fid := 0) hc (A0 := []) hcc (Or.inr ⟨rfl, rfl⟩) hle (by omega)
    rw [e3, Option.some.injEq, Prod.mk.injEq] at h1
    obtain ⟨rfl, rfl⟩ := h1
    rw [available_plain hp] at h2
    obtain ⟨A, g1, g2⟩ := intersec_seg hc e1 e2
    rw [g1, Option.some.injEq] at h2
    subst h2
    intro x
    rw [g2]
    have hab := e5 (by omega)
    have hT := hc.tiled
    rw [e1] at hT
    obtain ⟨m, m', _, hT2, hT3⟩ := tiled_seg hT
    have hm : a.b = m := hT2.1
    have hm' : m' = z.e := tiled_last i z m m' (e2 ▸ hT2)
    have hze : en ≤ z.e := by
      rcases e8 with h | h
      · exact h
      · rw [h] at hT3; simp only [Tiled] at hT3; omega
    have hzb : z.b ≤ en := by rcases e7 with h | h <;> omega
    constructor
    · intro hx u hu1 hu2
      obtain ⟨l', y, r', e, hy1, hy2⟩ := tiled_cover _ _ _ u hT2 (by omega) (by omega)
      have hy : y ∈ a :: t := by rw [e]; simp
      exact ⟨y, hc.mem_iff.2 (by rw [e1]; simp only [List.mem_append]; exact Or.inl (Or.inr hy)), hy1, hy2, hx y hy⟩
    · intro hx s hs
      -- every slot of the segment meets the window
      have hsb := (tiled_bounds _ _ _ hT2).2 s hs
      have hsc : s ∈ c := by rw [e1]; simp only [List.mem_append]; exact Or.inl (Or.inr hs)
      have hmeet : s.b ≤ en ∧ st ≤ s.e := by
        constructor
        · by_contra hgt
          have : s ≠ z := by rintro rfl; omega
          rw [e2] at hs hT2
          rcases List.mem_append.1 hs with hsi | hsi
          · rw [tiled_append] at hT2
            obtain ⟨m2, k1, k2⟩ := hT2
            have := (tiled_bounds _ _ _ k1).2 s hsi
            have := k2.1
            omega
          · simp at hsi; exact this hsi
        · by_contra hlt
          rcases List.mem_cons.1 hs with rfl | hst
          · omega
          · have := (tiled_bounds _ _ _ hT2.2.2).2 s hst
            omega
      obtain ⟨s', hs', k1, k2, k3⟩ := hx (max s.b st) (by omega) (by omega)
      have := tiled_unique c _ _ (max s.b st) hc.tiled s s' hsc (hc.mem_iff.1 hs') (by omega) (by omega) k1 k2
      subst this
      exact k3

/-- The start date of a reservation: the requested one, or now when it is late. -/
def arStart (now : Int) (job : Job) : Int := max job.startTime now

/-- The first (only) alternative of a reservation is well formed: a positive walltime, which includes the security time. -/
def ArOk (sec : Int) (m : Mld) : Prop := 0 < m.walltime ∧ 0 ≤ sec ∧ sec ≤ m.walltime

/-- **C14.** An accepted reservation: it starts at the requested date (or now if late), its resources are what the
hierarchical search answers (C05, C06) on the resources free at each date up to the end minus the security time, there is
at least one, and they are no longer free in its whole window; no other resource changes. -/
theorem reservation_accepted (ctx : Ctx) (hy : Hy) (sec now : Int) (ss : SlotSet) (job : Job) (m : Mld) (ms : List Mld)
    (o : ArOut) (hm : job.mlds = m :: ms) (hok : ArOk sec m) (hp : Plain job) (hwf : WF ss)
    (h : reserveOne ctx hy sec now ss job = some o) (hacc : "toAckReservation" ∈ o.states) :
    now < job.startTime + m.walltime ∧ o.job.startTime = arStart now job ∧ o.job.walltime = some m.walltime ∧
    o.job.moldableId = m.id ∧ o.resaScheduled = true ∧ o.states = ["toAckReservation"] ∧
    ss.begin_ ≤ arStart now job ∧ arStart now job + m.walltime ≤ ss.end_ ∧ WF o.slots ∧
    ∃ R A : ProcSet, o.job.resSet = some R ∧ R ≠ ∅ ∧
      (∀ x, x ∈ A ↔ FreeDuring ss (arStart now job) (m.walltime - sec + 1) x) ∧ findJob A m.groups hy = some R ∧ R ⊆ A ∧
      (∀ t x, arStart now job ≤ t → t < arStart now job + m.walltime → (Free o.slots t x ↔ Free ss t x ∧ x ∉ R)) ∧
      (∀ t x, t < arStart now job ∨ arStart now job + m.walltime < t ∨ x ∉ R → (Free o.slots t x ↔ Free ss t x)) ∧
      ∀ t x, Free o.slots t x → Free ss t x := by
  have hst : (if job.startTime < now then now else job.startTime) = arStart now job := by
    unfold arStart; split <;> omega
  unfold reserveOne at h
  rw [hm] at h
  dsimp only at h
  split at h
  · simp only [Option.some.injEq] at h; subst h; simp at hacc
  rename_i hold
  rw [hst] at h
  split at h
  · simp at h
  rename_i l r henc
  split at h
  · simp at h
  rename_i av hav
  split at h
  · simp at h
  rename_i itvs hf
  cases hover : (ctx.env.enabled && (checkSlots ctx.env ((ss.traverse l r).map Slot.q) job.qjob
    (itvs ∩ ctx.env.defaultItvs).card m.walltime).isSome) with
  | true =>
    rw [hover] at h
    simp only [if_true, Finset.card_empty, Option.some.injEq] at h
    subst h
    simp at hacc
  | false =>
    rw [hover] at h
    simp only [Bool.false_eq_true, if_false, List.nil_append] at h
    split at h
    · simp only [Option.some.injEq] at h; subst h; simp at hacc
    rename_i hcard
    split at h
    · simp at h
    rename_i l' r' hr
    split at h
    · simp at h
    rename_i ss' hs
    simp only [Option.some.injEq] at h
    subst h
    obtain ⟨k1, k2, k3, _, extra, k4⟩ := range_split hwf hok.1 hr hs
    dsimp only at k1 k2 k4
    have hA := ar_available hwf hp (by have := hok.2.2; omega) k1 (by have := hok.2.1; omega) henc hav
    have hA' : ∀ x, x ∈ av ↔ FreeDuring ss (arStart now job) (m.walltime - sec + 1) x := by
      intro x
      rw [hA, show arStart now job + m.walltime - sec - arStart now job + 1 = m.walltime - sec + 1 by omega]
    refine ⟨by omega, rfl, rfl, rfl, rfl, rfl, k1, k2, k3, itvs, av, rfl, ?_, hA', hf, findJob_subset _ _ _ _ hf, ?_, ?_,
      fun t x hx => ((k4 t x).1 hx).1⟩
    · rintro rfl; simp at hcard
    · intro t x h1 h2
      rw [k4]
      constructor
      · rintro ⟨h3, h4⟩; exact ⟨h3, fun hx => h4 ⟨hx, h1, Or.inl h2⟩⟩
      · rintro ⟨h3, h4⟩; exact ⟨h3, fun hx => h4 hx.1⟩
    · intro t x h1
      rw [k4]
      constructor
      · exact fun h3 => h3.1
      · refine fun h3 => ⟨h3, ?_⟩
        rintro ⟨h4, h5, h6⟩
        rcases h1 with h1 | h1 | h1
        · omega
        · rcases h6 with h6 | h6 <;> omega
        · exact h1 h4

/-- **C14.** A reservation that is not accepted is put in error and leaves the timeline unchanged; and, quotas put
aside, only when it is too old or when its request cannot be satisfied from the resources free at each date up to its end
minus the security time. -/
theorem reservation_refused (ctx : Ctx) (hy : Hy) (sec now : Int) (ss : SlotSet) (job : Job) (m : Mld) (ms : List Mld)
    (o : ArOut) (hm : job.mlds = m :: ms) (hok : ArOk sec m) (hp : Plain job) (hwf : WF ss)
    (h : reserveOne ctx hy sec now ss job = some o) (hacc : "toAckReservation" ∉ o.states) :
    o.slots = ss ∧ o.states ≠ [] ∧ (∀ s ∈ o.states, s = "toError") ∧
    (ctx.env.enabled = false → (∀ g ∈ m.groups, GroupOk hy g) → ss.begin_ ≤ arStart now job →
      arStart now job + m.walltime ≤ ss.end_ →
      job.startTime + m.walltime ≤ now ∨ ¬ Feasible ss hy m.groups (m.walltime - sec + 1) (arStart now job)) := by
  have hst : (if job.startTime < now then now else job.startTime) = arStart now job := by
    unfold arStart; split <;> omega
  unfold reserveOne at h
  rw [hm] at h
  dsimp only at h
  split at h
  · simp only [Option.some.injEq] at h; subst h
    rename_i hold
    exact ⟨rfl, by simp, by simp, fun _ _ _ _ => Or.inl (by omega)⟩
  rename_i hold
  rw [hst] at h
  split at h
  · simp at h
  rename_i l r henc
  split at h
  · simp at h
  rename_i av hav
  split at h
  · simp at h
  rename_i itvs hf
  cases hover : (ctx.env.enabled && (checkSlots ctx.env ((ss.traverse l r).map Slot.q) job.qjob
    (itvs ∩ ctx.env.defaultItvs).card m.walltime).isSome) with
  | true =>
    rw [hover] at h
    simp only [if_true, Finset.card_empty, Option.some.injEq] at h
    subst h
    refine ⟨rfl, by simp, by simp, fun hen => ?_⟩
    rw [hen] at hover
    simp at hover
  | false =>
    rw [hover] at h
    simp only [Bool.false_eq_true, if_false, List.nil_append] at h
    split at h
    · simp only [Option.some.injEq] at h; subst h
      rename_i hcard
      refine ⟨rfl, by simp, by simp, fun _ hg hb he => Or.inr ?_⟩
      have hA := ar_available hwf hp (by have := hok.2.2; omega) hb (by have := hok.2.1; omega) henc hav
      rintro ⟨A, hA1, hA2⟩
      have : A = av := by
        ext x
        rw [hA1, hA, show arStart now job + m.walltime - sec - arStart now job + 1 = m.walltime - sec + 1 by omega]
      subst this
      obtain ⟨r', k1, k2⟩ := findJob_sat A hy m.groups hg
      rw [hf, Option.some.injEq] at k1
      subst k1
      exact k2.2 hA2 (Finset.card_eq_zero.1 hcard)
    · split at h
      · simp at h
      split at h
      · simp at h
      simp only [Option.some.injEq] at h
      subst h
      simp at hacc

theorem reserveOne_mono {ctx : Ctx} {hy : Hy} {sec now : Int} {ss : SlotSet} {job : Job} {o : ArOut}
    (hok : ∀ m ∈ job.mlds, ArOk sec m) (hp : Plain job) (hwf : WF ss) (h : reserveOne ctx hy sec now ss job = some o) :
    WF o.slots ∧ ∀ t x, Free o.slots t x → Free ss t x := by
  cases hm : job.mlds with
  | nil => unfold reserveOne at h; rw [hm] at h; simp at h
  | cons m ms =>
    by_cases hacc : "toAckReservation" ∈ o.states
    · have := reservation_accepted ctx hy sec now ss job m ms o hm (hok m (by rw [hm]; simp)) hp hwf h hacc
      obtain ⟨_, _, _, _, _, _, _, _, h1, R, A, _, _, _, _, _, _, _, h2⟩ := this
      exact ⟨h1, h2⟩
    · obtain ⟨h1, _⟩ := reservation_refused ctx hy sec now ss job m ms o hm (hok m (by rw [hm]; simp)) hp hwf h hacc
      rw [h1]
      exact ⟨hwf, fun _ _ h => h⟩

/-- The reservation `o` holds resource `x` in the window `[start, start + walltime - cut)`. -/
def ArHolds (o : ArOut) (cut : Int) (x : Nat) (t : Int) : Prop :=
  "toAckReservation" ∈ o.states ∧ ∃ R w, o.job.resSet = some R ∧ o.job.walltime = some w ∧ x ∈ R ∧
    o.job.startTime ≤ t ∧ t < o.job.startTime + w - cut

theorem reserveAll_free {ctx : Ctx} {hy : Hy} {sec now : Int} : ∀ (jobs : List Job) (ss ss' : SlotSet) (os : List ArOut),
    (∀ j ∈ jobs, Plain j ∧ ∀ m ∈ j.mlds, ArOk sec m) → WF ss → reserveAll ctx hy sec now ss jobs = some (ss', os) →
    WF ss' ∧ (∀ t x, Free ss' t x → Free ss t x) ∧
    (∀ o ∈ os, ∀ x t, ArHolds o sec x t → Free ss t x) ∧ (∀ o ∈ os, ∀ x t, ArHolds o 0 x t → ¬ Free ss' t x) ∧
    os.Pairwise (fun a b => ∀ x t, ArHolds a 0 x t → ¬ ArHolds b sec x t)
  | [], ss, ss', os, _, hwf, h => by
    simp only [reserveAll, Option.some.injEq, Prod.mk.injEq] at h
    obtain ⟨rfl, rfl⟩ := h
    exact ⟨hwf, fun _ _ h => h, by simp, by simp, List.Pairwise.nil⟩
  | j :: js, ss, ss', os, hj, hwf, h => by
    unfold reserveAll at h
    split at h
    · simp at h
    rename_i o ho
    split at h
    · simp at h
    rename_i ss2 os2 hrest
    simp only [Option.some.injEq, Prod.mk.injEq] at h
    obtain ⟨rfl, rfl⟩ := h
    obtain ⟨hpl, hok⟩ := hj j (by simp)
    obtain ⟨m1, m2⟩ := reserveOne_mono hok hpl hwf ho
    obtain ⟨i1, i2, i3, i4, i5⟩ := reserveAll_free js o.slots ss2 os2 (fun k hk => hj k (by simp [hk])) m1 hrest
    -- what the first reservation holds
    have key : ∀ x t, (ArHolds o sec x t → Free ss t x) ∧ (ArHolds o 0 x t → ¬ Free o.slots t x) := by
      intro x t
      cases hm : j.mlds with
      | nil => unfold reserveOne at ho; rw [hm] at ho; simp at ho
      | cons m ms =>
        have hacc := fun hacc => reservation_accepted ctx hy sec now ss j m ms o hm (hok m (by rw [hm]; simp)) hpl hwf ho hacc
        constructor
        · rintro ⟨h1, R, w, h2, h3, h4, h5, h6⟩
          obtain ⟨_, g2, g3, _, _, _, _, _, _, R', A, q1, _, q3, _, q5, _⟩ := hacc h1
          rw [q1, Option.some.injEq] at h2
          rw [g3, Option.some.injEq] at h3
          subst h2; subst h3
          rw [g2] at h5 h6
          exact (q3 x).1 (q5 h4) t h5 (by omega)
        · rintro ⟨h1, R, w, h2, h3, h4, h5, h6⟩
          obtain ⟨_, g2, g3, _, _, _, _, _, _, R', A, q1, _, _, _, _, q6, _⟩ := hacc h1
          rw [q1, Option.some.injEq] at h2
          rw [g3, Option.some.injEq] at h3
          subst h2; subst h3
          rw [g2] at h5 h6
          intro hf
          exact ((q6 t x h5 (by omega)).1 hf).2 h4
    refine ⟨i1, fun t x h => m2 t x (i2 t x h), ?_, ?_, ?_⟩
    · intro o' ho' x t hh
      rcases List.mem_cons.1 ho' with rfl | ho'
      · exact (key x t).1 hh
      · exact m2 t x (i3 o' ho' x t hh)
    · intro o' ho' x t hh
      rcases List.mem_cons.1 ho' with rfl | ho'
      · exact fun hf => (key x t).2 hh (i2 t x hf)
      · exact i4 o' ho' x t hh
    · exact List.pairwise_cons.2 ⟨fun o' ho' x t h1 h2 => (key x t).2 h1 (i3 o' ho' x t h2), i5⟩

/-- **C14.** A round over any list of pending reservations. Each accepted reservation only holds, up to its end minus
the security time, resources that were free in the timeline; the resources of its whole window are no longer free
afterwards; and a reservation accepted later never holds (security time put aside) a resource at a date when an earlier
one holds it. -/
theorem reservations_exclusive (ctx : Ctx) (hy : Hy) (sec now : Int) (jobs : List Job) (ss ss' : SlotSet) (os : List ArOut)
    (hj : ∀ j ∈ jobs, Plain j ∧ ∀ m ∈ j.mlds, ArOk sec m) (hwf : WF ss)
    (h : reserveAll ctx hy sec now ss jobs = some (ss', os)) :
    (∀ o ∈ os, ∀ x t, ArHolds o sec x t → Free ss t x) ∧ (∀ o ∈ os, ∀ x t, ArHolds o 0 x t → ¬ Free ss' t x) ∧
    os.Pairwise (fun a b => ∀ x t, ArHolds a 0 x t → ¬ ArHolds b sec x t) :=
  (reserveAll_free jobs ss ss' os hj hwf h).2.2

/-- A reservation of `k` nodes at date `t` during `w`. -/
def ajob (i : Nat) (k t w : Int) : Job := { wjob i k w with startTime := t }

-- three reservations: accepted, refused (not enough nodes), accepted late (requested at -3, now is 0)
example : (reserveAll ctx0 hy4 2 0 ss0 [ajob 1 3 10 12, ajob 2 2 15 5, ajob 3 1 (-3) 8]).map
    (fun x => x.2.map (fun o => (o.states, o.job.startTime, o.job.resSet))) =
    some [(["toAckReservation"], 10, some {1, 2, 3}), (["toError"], 15, none), (["toAckReservation"], 0, some {1})] := by
  decide
example : ∀ j ∈ [ajob 1 3 10 12, ajob 2 2 15 5, ajob 3 1 (-3) 8], Plain j ∧ ∀ m ∈ j.mlds, ArOk 2 m := by
  intro j hj
  simp only [List.mem_cons, List.not_mem_nil, or_false] at hj
  rcases hj with rfl | rfl | rfl <;>
    exact ⟨⟨rfl, by decide⟩, by simp [ajob, wjob, rqt, ArOk]⟩

/-- The security time is not reserved: a reservation ending (security time included) after the start of an earlier
accepted one may be accepted on the same resource; the two reserved windows, security time included, overlap. -/
theorem security_time_not_reserved : ∃ ss' a b, reserveAll ctx0 hy4 5 0 ss0 [ajob 1 4 20 15, ajob 2 1 9 15] = some (ss', [a, b]) ∧
    ArHolds a 0 1 22 ∧ ArHolds b 0 1 22 := by
  have h : (reserveAll ctx0 hy4 5 0 ss0 [ajob 1 4 20 15, ajob 2 1 9 15]).map
      (fun x => x.2.map (fun o => ((o.states, o.job.startTime), (o.job.walltime, o.job.resSet)))) =
      some [((["toAckReservation"], 20), (some 15, some {1, 2, 3, 4})), ((["toAckReservation"], 9), (some 15, some {1}))] := by
    decide
  cases hr : reserveAll ctx0 hy4 5 0 ss0 [ajob 1 4 20 15, ajob 2 1 9 15] with
  | none => rw [hr] at h; simp at h
  | some p =>
    obtain ⟨ss', os⟩ := p
    rw [hr] at h
    simp only [Option.map_some, Option.some.injEq] at h
    match os, h with
    | [a, b], h =>
      simp only [List.map_cons, List.map_nil, List.cons.injEq, Prod.mk.injEq, and_true] at h
      obtain ⟨⟨⟨a1, a2⟩, a3, a4⟩, ⟨b1, b2⟩, b3, b4⟩ := h
      refine ⟨ss', a, b, rfl, ⟨by rw [a1]; simp, _, _, a4, a3, by decide, by omega, by omega⟩,
        ⟨by rw [b1]; simp, _, _, b4, b3, by decide, by omega, by omega⟩⟩

end Oar.Kao
